import Verif.Proofs.Whole3
/-! # Lemmas: groups with one line whose expression matches whole lines -/

namespace TTP
open Py Spec Re

/-- the expression matches whole lines; `f` gives the captures -/
structure OneLine (r : Re) (f : Str → Option Caps) : Prop where
  nl : ∀ t rest, '\n' ∉ t → (run r ('\n' :: (t ++ '\n' :: rest))).head? = (f t).map (fun c => ('\n' :: t, '\n' :: rest, c))
  other : ∀ c s, c ≠ '\n' → run r (c :: s) = []
  last : run r ['\n'] = []
  empty : run r [] = []

/-- the matches -/
def lineHits (f : Str → Option Caps) : Nat → List Str → List Match
  | _, [] => []
  | p, t :: ts => ((f t).map (fun c => (⟨p, '\n' :: t, c⟩ : Match))).toList ++ lineHits f (p + (t.length + 1)) ts

theorem scan_other (r : Re) (h : ∀ c s, c ≠ '\n' → run r (c :: s) = []) (t s : Str) (ht : '\n' ∉ t) (p : Nat) :
    scan r (t ++ s) p 0 = scan r s (p + t.length) 0 := by
  induction t generalizing p with
  | nil => rfl
  | cons c t ih =>
    simp only [List.mem_cons, not_or] at ht
    rw [List.cons_append, scan, h c _ (fun e => ht.1 e.symm)]
    simp only [ih ht.2, List.length_cons]
    congr 1; omega

theorem scan_covered (r : Re) (t s : Str) (p : Nat) : scan r (t ++ s) p t.length = scan r s (p + t.length) 0 := by
  induction t generalizing p with
  | nil => rfl
  | cons c t ih =>
    rw [List.cons_append, List.length_cons, scan, ih]
    congr 1; omega

theorem scan_lines (r : Re) (f : Str → Option Caps) (hr : OneLine r f) (lines : List Str) (hl : ∀ t ∈ lines, '\n' ∉ t) (p : Nat) :
    scan r (nlText lines) p 0 = lineHits f p lines := by
  induction lines generalizing p with
  | nil => simp [nlText, scan, hr.last, hr.empty, lineHits]
  | cons t ts ih =>
    have ht := hl t (by simp)
    obtain ⟨rest, er⟩ := nlText_head ts
    have h1 := hr.nl t rest ht
    have ih := ih (fun t' h' => hl t' (by simp [h']))
    simp only [nlText, lineHits]
    rw [er] at ih ⊢
    rw [scan.eq_def]
    dsimp only
    cases hf : f t with
    | none =>
      rw [hf] at h1
      simp only [Option.map_none, List.head?_eq_none_iff] at h1
      simp only [h1, Option.map_none, Option.toList_none, List.nil_append]
      rw [scan_other r hr.other t _ ht, ← ih]
      congr 1; omega
    | some c =>
      rw [hf] at h1
      simp only [Option.map_some] at h1
      cases hrun : run r ('\n' :: (t ++ '\n' :: rest)) with
      | nil => rw [hrun] at h1; cases h1
      | cons h hs =>
        rw [hrun] at h1
        simp only [List.head?_cons, Option.some.injEq] at h1
        subst h1
        simp only [Option.map_some, Option.toList_some, List.cons_append, List.nil_append, List.length_cons, Nat.add_sub_cancel]
        rw [scan_covered, ← ih]
        congr 2; omega

theorem finditer_lines (r : Re) (f : Str → Option Caps) (hr : OneLine r f) (lines : List Str) (hl : ∀ t ∈ lines, '\n' ∉ t) :
    finditer r (nlText lines) = lineHits f 0 lines := scan_lines r f hr lines hl 0

/-- the matches by position -/
def rowDict (info : GInfo) (R : LineRx) (f : Str → Option Caps) (chk : Caps → Option (Dict Key Val)) : Nat → List Str → RawDict
  | _, [] => []
  | p, t :: ts => ((f t).map (fun c => (p, [⟨info, R, chk c⟩]))).toList ++ rowDict info R f chk (p + (t.length + 1)) ts

theorem rowDict_ge (info : GInfo) (R : LineRx) (f : Str → Option Caps) (chk : Caps → Option (Dict Key Val)) (p : Nat) (lines : List Str) :
    ∀ kv ∈ rowDict info R f chk p lines, p ≤ kv.1 := by
  induction lines generalizing p with
  | nil => simp [rowDict]
  | cons t ts ih =>
    intro kv h
    simp only [rowDict, List.mem_append, Option.mem_toList, Option.map_eq_some_iff] at h
    rcases h with ⟨c, _, rfl⟩ | h
    · exact Nat.le_refl _
    · have := ih _ kv h; omega

theorem sortRaw_rowDict (info : GInfo) (R : LineRx) (f : Str → Option Caps) (chk : Caps → Option (Dict Key Val)) (p : Nat) (lines : List Str) :
    sortRaw (rowDict info R f chk p lines) = rowDict info R f chk p lines := by
  induction lines generalizing p with
  | nil => rfl
  | cons t ts ih =>
    simp only [rowDict]
    cases hf : f t with
    | none => simpa using ih _
    | some c =>
      simp only [Option.map_some, Option.toList_some, List.cons_append, List.nil_append]
      rw [sortRaw, List.foldr_cons]
      have := ih (p + (t.length + 1))
      rw [sortRaw] at this
      rw [this]
      cases hd : rowDict info R f chk (p + (t.length + 1)) ts with
      | nil => rfl
      | cons x xs =>
        have := rowDict_ge info R f chk _ ts x (by rw [hd]; simp)
        rw [insertPos, if_pos (by simp; omega)]

theorem checkMatches_rows (mf : MatchFns) (info : GInfo) (R : LineRx) (hR : R.action.isStart = true) (f : Str → Option Caps)
    (chk : Caps → Option (Dict Key Val)) (env : Env) (lines : List Str)
    (hc : ∀ t ∈ lines, ∀ c p, f t = some c → checkMatch mf R ⟨p, '\n' :: t, c⟩ env = .ok (env, chk c)) (p : Nat) (r : RawDict)
    (hr : ∀ kv ∈ r, kv.1 < p) :
    checkMatches mf info R 0 (lineHits f p lines) env r = .ok (env, r ++ rowDict info R f chk p lines) := by
  induction lines generalizing p r with
  | nil => simp [lineHits, checkMatches, rowDict, pure_ok]
  | cons t ts ih =>
    simp only [lineHits, rowDict]
    cases hf : f t with
    | none =>
      simp only [Option.map_none, Option.toList_none, List.nil_append]
      exact ih (fun t' h' => hc t' (by simp [h'])) _ _ (fun kv h => by have := hr kv h; omega)
    | some c =>
      have hk : p ∉ Dict.keys r := by
        intro h
        obtain ⟨kv, h1, h2⟩ := List.mem_map.1 h
        have := hr kv h1; omega
      simp only [Option.map_some, Option.toList_some, List.cons_append, List.nil_append, checkMatches, hc t (by simp) c p hf, ok_bind, hR,
        Bool.not_true, Bool.and_false, Bool.false_eq_true, if_false, Nat.zero_add]
      have ha : addRaw r p ⟨info, R, chk c⟩ = r ++ [(p, [⟨info, R, chk c⟩])] := by
        unfold addRaw
        rw [(Dict.get?_eq_none_iff _ _).2 hk, Dict.set_of_not_mem _ _ _ hk]
        rfl
      rw [ha, ih (fun t' h' => hc t' (by simp [h'])) _ _ (by
        intro kv h
        rcases List.mem_append.1 h with h | h
        · have := hr kv h; omega
        · simp only [List.mem_singleton] at h; subst h; simp)]
      simp

theorem runRe_rows (mf : MatchFns) (info : GInfo) (R : LineRx) (hR : R.action.isStart = true) (f : Str → Option Caps)
    (hr : OneLine R.re f) (chk : Caps → Option (Dict Key Val)) (env : Env) (lines : List Str) (hne : lines ≠ []) (hl : ∀ t ∈ lines, '\n' ∉ t)
    (hc : ∀ t ∈ lines, ∀ c p, f t = some c → checkMatch mf R ⟨p, '\n' :: t, c⟩ env = .ok (env, chk c)) :
    runRe mf (dataText (join c!"\n" lines)) (.mk info [R] [] [] false []) 0 none env [] =
      .ok (env, rowDict info R f chk 0 lines) := by
  have hs0 : slice (dataText (join c!"\n" lines)) 0 none = nlText lines := by
    have := slice_nl lines hne 0 (Nat.zero_le _)
    simpa [posOf] using this
  have h1 := checkMatches_rows mf info R hR f chk env lines hc 0 [] (by simp)
  simp only [runRe, runStarts, hs0, finditer_lines R.re f hr lines hl]
  cases hh : lineHits f 0 lines with
  | nil =>
    rw [hh] at h1
    simp only [checkMatches, pure_ok, List.nil_append, Except.ok.injEq, Prod.mk.injEq, true_and] at h1
    simp only [pure_ok, ok_bind, Bool.false_eq_true, if_false, runDefaultChildren, ← h1]
  | cons m0 ms =>
    rw [hh] at h1
    simp only [h1, ok_bind, pure_ok, runEnds, runNormals, runChildren, List.nil_append]

theorem rowDict_hits (env : Env) (info : GInfo) (R : LineRx) (f : Str → Option Caps) (chk : Caps → Option (Dict Key Val)) (p : Nat)
    (lines : List Str) : (rowDict info R f chk p lines).map (fun kv => kv.2.map (toHit env)) =
      ((lines.filterMap f).map (fun c => toHit env ⟨info, R, chk c⟩)).map ([·]) := by
  induction lines generalizing p with
  | nil => rfl
  | cons t ts ih =>
    simp only [rowDict]
    cases hf : f t <;> simp [hf, ih]

theorem rowDict_nil (info : GInfo) (R : LineRx) (f : Str → Option Caps) (chk : Caps → Option (Dict Key Val)) (p : Nat) (lines : List Str)
    (h : rowDict info R f chk p lines = []) : lines.filterMap f = [] := by
  induction lines generalizing p with
  | nil => rfl
  | cons t ts ih =>
    simp only [rowDict, List.append_eq_nil_iff] at h
    cases hf : f t with
    | none => simp [hf, ih _ h.2]
    | some c => rw [hf] at h; simp at h

end TTP
