import Verif.Proofs.Whole2
import Verif.Proofs.Save
/-! # Lemmas: the matches of a group with plain lines -/

namespace TTP
open Py Spec Re

/-! ## Values of a match -/

theorem checkVars_plain (mf : MatchFns) (vars : Dict Str (Str × List FnCall)) (env : Env) (caps : List (Str × Str))
    (hv : ∀ n ∈ caps.map Prod.fst, Dict.get? vars n = some (n, [])) (hn : (caps.map Prod.fst).Nodup) (acc : Dict Key Val)
    (hacc : ∀ n ∈ caps.map Prod.fst, Key.s n ∉ Dict.keys acc) :
    checkVars mf vars caps env acc = .ok (env, some (acc ++ recOf caps)) := by
  induction caps generalizing acc with
  | nil => simp [checkVars, recOf, pure_ok]
  | cons c caps ih =>
    obtain ⟨n, t⟩ := c
    simp only [List.map_cons, List.nodup_cons] at hn
    have hset : Dict.set acc (.s n) (.str t) = acc ++ [(.s n, .str t)] := Dict.set_of_not_mem _ _ _ (hacc n (by simp))
    simp only [checkVars, hv n (by simp), runMatchFns, pure_ok, ok_bind, Option.getD_none, hset]
    rw [show Dict.update (acc ++ [(Key.s n, Val.str t)]) [] = acc ++ [(Key.s n, Val.str t)] from rfl]
    rw [ih (fun m hm => hv m (by simp only [List.map_cons, List.mem_cons]; exact Or.inr hm)) hn.2 _ ?_]
    · simp [recOf]
    · intro m hm hk
      simp only [Dict.keys, List.map_append, List.map_cons, List.map_nil, List.mem_append, List.mem_singleton, Key.s.injEq] at hk
      rcases hk with hk | rfl
      · exact hacc m (by simp only [List.map_cons, List.mem_cons]; exact Or.inr hm) hk
      · exact hn.1 hm

theorem rxAt_vars (j : Nat) (l : TplLine) : (rxAt j l).vars = (tplRx l).vars := by cases j <;> rfl
theorem rxAt_re (j : Nat) (l : TplLine) : (rxAt j l).re = TplRe l := by cases j <;> rfl

theorem checkMatch_tpl (mf : MatchFns) (l : TplLine) (ho : l.OK) (j : Nat) (m : Re.Match) (hm : m.caps.map Prod.fst = tokNames l.items)
    (env : Env) : checkMatch mf (rxAt j l) m env = .ok (env, some (recOf m.caps)) := by
  have hne : m.caps.isEmpty = false := by
    cases hc : m.caps with
    | nil => rw [hc] at hm; exact absurd hm.symm ho.some
    | cons => rfl
  unfold checkMatch matchValues
  simp only [hne, Bool.false_eq_true, if_false, rxAt_vars]
  have := checkVars_plain mf (tplRx l).vars env m.caps (fun n hn => tplRx_vars l n (hm ▸ hn)) (hm ▸ ho.names) [] (by simp [Dict.keys])
  simpa using this

/-- the log of a line -/
def tplLog (info : GInfo) (j : Nat) (l : TplLine) (start : Nat) (ms : List Re.Match) : List (Nat × RawHit) :=
  ms.map (fun m => (start + m.start, ⟨info, rxAt j l, some (recOf m.caps)⟩))

theorem checkMatches_tpl (mf : MatchFns) (info : GInfo) (l : TplLine) (ho : l.OK) (j : Nat) (start : Nat) (ms : List Re.Match)
    (hm : ∀ m ∈ ms, m.caps.map Prod.fst = tokNames l.items) (env : Env) (r : RawDict) :
    checkMatches mf info (rxAt j l) start ms env r = .ok (env, logDict r (tplLog info j l start ms)) := by
  induction ms generalizing r with
  | nil => rfl
  | cons m ms ih =>
    simp only [checkMatches, checkMatch_tpl mf l ho j m (hm m (by simp)), ok_bind, Option.isNone_some, Bool.false_and,
      Bool.false_eq_true, if_false]
    rw [ih (fun m' h' => hm m' (by simp [h']))]
    rfl

/-- names of the captures -/
theorem tpl_caps (l : TplLine) (ho : l.OK) (lines : List Str) (hl : ∀ t ∈ lines, '\n' ∉ t) (m : Re.Match)
    (hm : m ∈ finditer (TplRe l) (nlText lines)) : m.caps.map Prod.fst = tokNames l.items := by
  obtain ⟨i, t, _, _, hf⟩ := (tplRe_finditer l ho lines hl m.start m.caps).1 ⟨m, hm, rfl, rfl⟩
  exact fits_names l t _ hf

/-- log of the ordinary lines -/
def normLog (info : GInfo) (start : Nat) (s : Str) (tpl : List TplLine) : List (Nat × RawHit) :=
  tpl.flatMap (fun l => tplLog info 1 l start (finditer (TplRe l) s))

theorem runNormals_tpl (mf : MatchFns) (text : Str) (info : GInfo) (start : Nat) (lines : List Str) (hl : ∀ t ∈ lines, '\n' ∉ t)
    (hs : slice text start none = nlText lines) (tpl : List TplLine) (ho : ∀ l ∈ tpl, l.OK) (env : Env) (r : RawDict) :
    runNormals mf text info start none (tpl.map tplRx) env r = .ok (env, logDict r (normLog info start (nlText lines) tpl)) := by
  induction tpl generalizing r with
  | nil => rfl
  | cons l tpl ih =>
    have h1 := checkMatches_tpl mf info l (ho l (by simp)) 1 start (finditer (TplRe l) (nlText lines))
      (fun m hm => tpl_caps l (ho l (by simp)) lines hl m hm) env r
    have e : (tplRx l).re = TplRe l := rfl
    simp only [List.map_cons, runNormals, hs, e]
    rw [show tplRx l = rxAt 1 l from rfl, h1]
    simp only [ok_bind]
    rw [ih (fun l' h' => ho l' (by simp [h'])), ← logDict_append]
    rfl

/-! ## The matches of the group -/

/-- the whole log, if the first start is on line `i` -/
def grpLog (info : GInfo) (l : TplLine) (tpl : List TplLine) (lines : List Str) (i : Nat) : List (Nat × RawHit) :=
  tplLog info 0 l 0 (finditer (TplRe l) (nlText lines)) ++ normLog info (posOf lines i) (nlText (lines.drop i)) tpl

theorem runRe_tpl (mf : MatchFns) (name : Str) (l : TplLine) (tpl : List TplLine) (ho : ∀ l' ∈ l :: tpl, l'.OK) (lines : List Str)
    (hne : lines ≠ []) (hl : ∀ t ∈ lines, '\n' ∉ t) (i : Nat) (hi : ∃ t v, lines[i]? = some t ∧ l.Fits t v)
    (hmin : ∀ k t v, lines[k]? = some t → l.Fits t v → i ≤ k) (env : Env) :
    runRe mf (dataText (join c!"\n" lines)) (tplGrp name l tpl) 0 none env [] =
      .ok (env, logDict [] (grpLog (tplInfo name) l tpl lines i)) := by
  have hol := ho l (by simp)
  have hs0 : slice (dataText (join c!"\n" lines)) 0 none = nlText lines := by
    have := slice_nl lines hne 0 (Nat.zero_le _)
    simpa [posOf] using this
  obtain ⟨t, v, hit, hf⟩ := hi
  obtain ⟨m, hm, hmp, hmc⟩ := (tplRe_finditer l hol lines hl (posOf lines i) v).2 ⟨i, t, hit, rfl, hf⟩
  have hilt : i < lines.length := (List.getElem?_eq_some_iff.1 hit).1
  cases hfi : finditer (TplRe l) (nlText lines) with
  | nil => rw [hfi] at hm; cases hm
  | cons m0 ms =>
    have hm0 : m0.start = posOf lines i := by
      have h1 := finditer_head_min _ _ _ _ hfi m hm
      obtain ⟨k, t', hk, hp, hf'⟩ := (tplRe_finditer l hol lines hl m0.start m0.caps).1 ⟨m0, by rw [hfi]; simp, rfl, rfl⟩
      have h2 := hmin k t' _ hk hf'
      have hklt : k < lines.length := (List.getElem?_eq_some_iff.1 hk).1
      rcases Nat.lt_or_eq_of_le h2 with h2 | rfl
      · have := posOf_lt lines i k h2 (by omega)
        omega
      · exact hp
    have hs1 := slice_nl lines hne i (by omega)
    have hst := checkMatches_tpl mf (tplInfo name) l hol 0 0 (m0 :: ms)
      (fun m hm => tpl_caps l hol lines hl m (by rw [hfi]; exact hm)) env []
    have e : (rxAt 0 l).re = TplRe l := rfl
    have hnorm := runNormals_tpl mf (dataText (join c!"\n" lines)) (tplInfo name) (posOf lines i) (lines.drop i)
      (fun t ht => hl t (List.mem_of_mem_drop ht)) hs1 tpl (fun l' h' => ho l' (by simp [h'])) env
      (logDict [] (tplLog (tplInfo name) 0 l 0 (m0 :: ms)))
    simp only [tplGrp, runRe, runStarts, hs0, e, hfi, hst, ok_bind, pure_ok, runEnds, Nat.zero_add, hm0, hnorm, runChildren]
    rw [← logDict_append, grpLog, hfi]

theorem runRe_tpl_none (mf : MatchFns) (name : Str) (l : TplLine) (tpl : List TplLine) (ho : ∀ l' ∈ l :: tpl, l'.OK) (lines : List Str)
    (hne : lines ≠ []) (hl : ∀ t ∈ lines, '\n' ∉ t) (hno : ∀ t ∈ lines, ∀ v, ¬ l.Fits t v) (env : Env) :
    runRe mf (dataText (join c!"\n" lines)) (tplGrp name l tpl) 0 none env [] = .ok (env, []) := by
  have hol := ho l (by simp)
  have hs0 : slice (dataText (join c!"\n" lines)) 0 none = nlText lines := by
    have := slice_nl lines hne 0 (Nat.zero_le _)
    simpa [posOf] using this
  have hfi : finditer (TplRe l) (nlText lines) = [] := by
    cases hfi : finditer (TplRe l) (nlText lines) with
    | nil => rfl
    | cons m ms =>
      obtain ⟨k, t', hk, _, hf'⟩ := (tplRe_finditer l hol lines hl m.start m.caps).1 ⟨m, by rw [hfi]; simp, rfl, rfl⟩
      exact absurd hf' (hno t' (List.mem_of_getElem? hk) _)
  have e : (rxAt 0 l).re = TplRe l := rfl
  simp only [tplGrp, runRe, runStarts, hs0, e, hfi, pure_ok, ok_bind, Bool.false_eq_true, if_false, runDefaultChildren]

/-! ## Matches at a position -/

theorem atPos_append (a b : List (Nat × RawHit)) (p : Nat) : atPos (a ++ b) p = atPos a p ++ atPos b p := by
  simp [atPos]

/-- at most one match of a line at a position -/
theorem atPos_tplLog (info : GInfo) (j : Nat) (l : TplLine) (ho : l.OK) (start : Nat) (lines : List Str) (hl : ∀ t ∈ lines, '\n' ∉ t)
    (k : Nat) (t : Str) (hk : lines[k]? = some t) :
    (∀ v, l.Fits t v → atPos (tplLog info j l start (finditer (TplRe l) (nlText lines))) (start + posOf lines k) =
      [⟨info, rxAt j l, some (recOf v)⟩]) ∧
    ((∀ v, ¬ l.Fits t v) → atPos (tplLog info j l start (finditer (TplRe l) (nlText lines))) (start + posOf lines k) = []) := by
  have hasc := scan_ascending (TplRe l) (nlText lines) 0 0
  have hatone : ∀ (ms : List Re.Match), ms.Pairwise (fun a b => a.start < b.start ∧ a.stop ≤ b.start) → ∀ m ∈ ms,
      atPos (tplLog info j l start ms) (start + m.start) = [⟨info, rxAt j l, some (recOf m.caps)⟩] := by
    intro ms
    induction ms with
    | nil => intro _ m hm; cases hm
    | cons a ms ih =>
      intro hp m hm
      rw [List.pairwise_cons] at hp
      rcases List.mem_cons.1 hm with rfl | hm
      · have : atPos (tplLog info j l start ms) (start + m.start) = [] := by
          simp only [atPos, tplLog, List.map_eq_nil_iff, List.filter_eq_nil_iff, List.mem_map]
          rintro _ ⟨b, hb, rfl⟩
          have := (hp.1 b hb).1
          simp; omega
        simp only [atPos, tplLog, List.map_cons, List.filter_cons, beq_self_eq_true, if_true] at this ⊢
        rw [this]
      · have hne : (start + a.start == start + m.start) = false := by
          have := (hp.1 m hm).1
          simp; omega
        have := ih hp.2 m hm
        simp only [atPos, tplLog, List.map_cons, List.filter_cons, hne, Bool.false_eq_true, if_false] at this ⊢
        rw [this]
  constructor
  · intro v hv
    obtain ⟨m, hm, hmp, hmc⟩ := (tplRe_finditer l ho lines hl (posOf lines k) v).2 ⟨k, t, hk, rfl, hv⟩
    have := hatone _ hasc m hm
    rw [← hmp, ← hmc]
    exact this
  · intro hno
    simp only [atPos, tplLog, List.map_eq_nil_iff, List.filter_eq_nil_iff, List.mem_map]
    rintro _ ⟨m, hm, rfl⟩
    intro he
    have he : m.start = posOf lines k := by simpa using he
    obtain ⟨k', t', hk', hp, hf⟩ := (tplRe_finditer l ho lines hl m.start m.caps).1 ⟨m, hm, rfl, rfl⟩
    have hklt : k < lines.length := (List.getElem?_eq_some_iff.1 hk).1
    have hklt' : k' < lines.length := (List.getElem?_eq_some_iff.1 hk').1
    have : k = k' := by
      rcases Nat.lt_trichotomy k k' with h | h | h
      · have := posOf_lt lines k k' h (by omega); omega
      · exact h
      · have := posOf_lt lines k' k h (by omega); omega
    subst this
    rw [hk] at hk'
    cases hk'
    exact hno _ hf

theorem atPos_tplLog_ne (info : GInfo) (j : Nat) (l : TplLine) (ho : l.OK) (start : Nat) (lines : List Str) (hl : ∀ t ∈ lines, '\n' ∉ t)
    (p : Nat) (hp : atPos (tplLog info j l start (finditer (TplRe l) (nlText lines))) p ≠ []) :
    ∃ k t v, lines[k]? = some t ∧ p = start + posOf lines k ∧ l.Fits t v := by
  obtain ⟨x, hx⟩ := List.exists_mem_of_ne_nil _ hp
  simp only [atPos, tplLog, List.mem_map, List.mem_filter] at hx
  obtain ⟨_, ⟨⟨m, hm, rfl⟩, he⟩, _⟩ := hx
  obtain ⟨k, t, hk, hpk, hf⟩ := (tplRe_finditer l ho lines hl m.start m.caps).1 ⟨m, hm, rfl, rfl⟩
  have he : start + m.start = p := by simpa using he
  exact ⟨k, t, m.caps, hk, by omega, hf⟩

theorem atPos_normLog (info : GInfo) (start : Nat) (s : Str) (tpl : List TplLine) (p : Nat) :
    atPos (normLog info start s tpl) p = tpl.flatMap (fun l => atPos (tplLog info 1 l start (finditer (TplRe l) s)) p) := by
  induction tpl with
  | nil => rfl
  | cons l tpl ih => simp only [normLog, List.flatMap_cons] at ih ⊢; rw [atPos_append, ih]

/-- only one item of a list has something to say -/
theorem flatMap_one {α β : Type} (ls : List α) (f : α → List β) (j : Nat) (l : α) (hj : ls[j]? = some l)
    (h : ∀ i l, ls[i]? = some l → f l ≠ [] → i = j) : ls.flatMap f = f l := by
  induction ls generalizing j with
  | nil => cases hj
  | cons a ls ih =>
    cases j with
    | zero =>
      simp only [List.getElem?_cons_zero, Option.some.injEq] at hj
      subst hj
      have : ls.flatMap f = [] := by
        rw [List.flatMap_eq_nil_iff]
        intro b hb
        obtain ⟨i, hi⟩ := List.getElem?_of_mem hb
        by_cases hn : f b = []
        · exact hn
        · exact absurd (h (i + 1) b (by simpa using hi) hn) (by omega)
      simp [this]
    | succ j =>
      have ha : f a = [] := by
        by_cases hn : f a = []
        · exact hn
        · exact absurd (h 0 a (by simp) hn) (by omega)
      simp only [List.flatMap_cons, ha, List.nil_append]
      exact ih j (by simpa using hj) (fun i l hi hn => by
        have := h (i + 1) l (by simpa using hi) hn
        omega)

theorem posOf_add (lines : List Str) (i k : Nat) (hi : i ≤ lines.length) : posOf lines (i + k) = posOf lines i + posOf (lines.drop i) k := by
  induction i generalizing lines with
  | zero => simp [posOf]
  | succ i ih =>
    cases lines with
    | nil => simp at hi
    | cons l ls =>
      have := ih ls (by simpa using hi)
      have e : i + 1 + k = (i + k) + 1 := by omega
      rw [e]
      simp only [posOf, List.take_succ_cons, List.map_cons, List.sum_cons, List.drop_succ_cons] at this ⊢
      omega

/-- the entry of a template line by its number -/
def lineAt (tpl : List TplLine) (j : Nat) : TplLine := (tpl[j]?).getD ⟨[], [], []⟩

/-- the match of a line that was read -/
def hitOf (info : GInfo) (tpl : List TplLine) (r : Nat × List (Str × Str)) : RawHit :=
  ⟨info, rxAt r.1 (lineAt tpl r.1), some (recOf r.2)⟩

theorem rxAt_succ (j : Nat) (l : TplLine) : rxAt (j + 1) l = rxAt 1 l := rfl

/-- all matches at a line from the first start on -/
theorem atPos_grpLog (info : GInfo) (l : TplLine) (tpl : List TplLine) (ho : ∀ l' ∈ l :: tpl, l'.OK) (lines : List Str)
    (hl : ∀ t ∈ lines, '\n' ∉ t) (i : Nat) (k : Nat) (t : Str) (hik : i ≤ k) (hk : lines[k]? = some t)
    (r : Option (Nat × List (Str × Str))) (hr : Reads (l :: tpl) t r) :
    atPos (grpLog info l tpl lines i) (posOf lines k) = (r.map (hitOf info (l :: tpl))).toList := by
  have hklt : k < lines.length := (List.getElem?_eq_some_iff.1 hk).1
  have hk' : (lines.drop i)[k - i]? = some t := by rw [List.getElem?_drop]; rw [show i + (k - i) = k by omega]; exact hk
  have hpos : posOf lines k = posOf lines i + posOf (lines.drop i) (k - i) := by
    rw [← posOf_add lines i (k - i) (by omega)]; congr 1; omega
  have hld : ∀ t ∈ lines.drop i, '\n' ∉ t := fun t ht => hl t (List.mem_of_mem_drop ht)
  have hstart := atPos_tplLog info 0 l (ho l (by simp)) 0 lines hl k t hk
  simp only [Nat.zero_add] at hstart
  have hnorm : ∀ l' ∈ tpl, _ := fun l' h' => atPos_tplLog info 1 l' (ho l' (by simp [h'])) (posOf lines i) (lines.drop i) hld (k - i) t hk'
  simp only [← hpos] at hnorm
  rw [grpLog, atPos_append, atPos_normLog]
  cases r with
  | none =>
    have h1 := hstart.2 (fun v => hr l (by simp) v)
    rw [h1]
    simp only [List.nil_append, Option.map_none, Option.toList_none, List.flatMap_eq_nil_iff]
    intro l' hl'
    exact (hnorm l' hl').2 (fun v => hr l' (by simp [hl']) v)
  | some jv =>
    obtain ⟨j, v⟩ := jv
    obtain ⟨⟨l', hj, hf⟩, huniq⟩ := hr
    simp only [Option.map_some, Option.toList_some, hitOf, lineAt, hj, Option.getD_some]
    cases j with
    | zero =>
      simp only [List.getElem?_cons_zero, Option.some.injEq] at hj
      subst hj
      rw [hstart.1 v hf]
      have : tpl.flatMap (fun l' => atPos (tplLog info 1 l' (posOf lines i) (finditer (TplRe l') (nlText (lines.drop i)))) (posOf lines k)) =
          [] := by
        rw [List.flatMap_eq_nil_iff]
        intro l2 hl2
        apply (hnorm l2 hl2).2
        intro v2 hv2
        obtain ⟨i2, hi2⟩ := List.getElem?_of_mem hl2
        have := huniq (i2 + 1) l2 v2 (by simpa using hi2) hv2
        omega
      rw [this]; rfl
    | succ j =>
      have hj' : tpl[j]? = some l' := by simpa using hj
      rw [hstart.2 (fun v0 hv0 => by have := huniq 0 l v0 (by simp) hv0; omega)]
      rw [flatMap_one tpl _ j l' hj' (by
        intro i2 l2 hi2 hne
        by_cases hex : ∃ v2, l2.Fits t v2
        · obtain ⟨v2, hv2⟩ := hex
          have := huniq (i2 + 1) l2 v2 (by simpa using hi2) hv2
          omega
        · exact absurd ((hnorm l2 (List.mem_of_getElem? hi2)).2 (fun v2 hv2 => hex ⟨v2, hv2⟩)) hne)]
      rw [(hnorm l' (List.mem_of_getElem? hj')).1 v hf]
      rfl

/-- what is read from the first start on, with positions -/
def placedHits (info : GInfo) (tpl : List TplLine) : Nat → List Str → List (Option (Nat × List (Str × Str))) → RawDict
  | p, t :: ts, some r :: rs => (p, [hitOf info tpl r]) :: placedHits info tpl (p + (t.length + 1)) ts rs
  | p, t :: ts, none :: rs => placedHits info tpl (p + (t.length + 1)) ts rs
  | _, _, _ => []

theorem mem_placedHits (info : GInfo) (tpl : List TplLine) (lines : List Str) (rs : List (Option (Nat × List (Str × Str)))) (p : Nat)
    (q : Nat) (hs : List RawHit) : (q, hs) ∈ placedHits info tpl p lines rs ↔
      ∃ k t r, lines[k]? = some t ∧ rs[k]? = some (some r) ∧ q = p + posOf lines k ∧ hs = [hitOf info tpl r] := by
  induction lines generalizing rs p with
  | nil => simp [placedHits]
  | cons t ts ih =>
    have hposS : ∀ k, posOf (t :: ts) (k + 1) = t.length + 1 + posOf ts k := by intro k; simp [posOf]
    have hpos0 : posOf (t :: ts) 0 = 0 := rfl
    cases rs with
    | nil => simp [placedHits]
    | cons r rs =>
      have shift : (∃ k t' r', ts[k]? = some t' ∧ rs[k]? = some (some r') ∧ q = p + (t.length + 1) + posOf ts k ∧ hs = [hitOf info tpl r']) ↔
          ∃ k t' r', (t :: ts)[k + 1]? = some t' ∧ (r :: rs)[k + 1]? = some (some r') ∧ q = p + posOf (t :: ts) (k + 1) ∧
            hs = [hitOf info tpl r'] := by
        simp only [List.getElem?_cons_succ, hposS, Nat.add_assoc]
      have split : (∃ k t' r', (t :: ts)[k]? = some t' ∧ (r :: rs)[k]? = some (some r') ∧ q = p + posOf (t :: ts) k ∧ hs = [hitOf info tpl r']) ↔
          (∃ r', r = some r' ∧ q = p ∧ hs = [hitOf info tpl r']) ∨
          ∃ k t' r', (t :: ts)[k + 1]? = some t' ∧ (r :: rs)[k + 1]? = some (some r') ∧ q = p + posOf (t :: ts) (k + 1) ∧
            hs = [hitOf info tpl r'] := by
        constructor
        · rintro ⟨k, t', r', h1, h2, h3, h4⟩
          cases k with
          | zero => left; exact ⟨r', by simpa using h2, by simpa [hpos0] using h3, h4⟩
          | succ k => right; exact ⟨k, t', r', h1, h2, h3, h4⟩
        · rintro (⟨r', h1, h2, h3⟩ | ⟨k, t', r', h⟩)
          · exact ⟨0, t, r', by simp, by simp [h1], by simp [hpos0, h2], h3⟩
          · exact ⟨k + 1, t', r', h⟩
      rw [split, ← shift, ← ih]
      cases r with
      | none => simp [placedHits]
      | some r =>
        simp only [placedHits, List.mem_cons, Prod.mk.injEq, Option.some.injEq, exists_eq_left']

theorem placedHits_sorted (info : GInfo) (tpl : List TplLine) (lines : List Str) (rs : List (Option (Nat × List (Str × Str)))) (p : Nat) :
    (placedHits info tpl p lines rs).Pairwise (fun a b => a.1 < b.1) := by
  induction lines generalizing rs p with
  | nil => simp [placedHits]
  | cons t ts ih =>
    cases rs with
    | nil => simp [placedHits]
    | cons r rs =>
      cases r with
      | none => exact ih rs _
      | some r =>
        simp only [placedHits, List.pairwise_cons]
        refine ⟨?_, ih rs _⟩
        rintro ⟨q, hs⟩ hm
        rw [mem_placedHits] at hm
        obtain ⟨k, _, _, _, _, h, _⟩ := hm
        show p < q
        omega

theorem placedHits_hits (info : GInfo) (tpl : List TplLine) (lines : List Str) (rs : List (Option (Nat × List (Str × Str)))) (p : Nat)
    (hlen : lines.length = rs.length) :
    (placedHits info tpl p lines rs).map Prod.snd = (rs.filterMap id).map (fun r => [hitOf info tpl r]) := by
  induction lines generalizing rs p with
  | nil =>
    have : rs = [] := List.length_eq_zero_iff.1 hlen.symm
    subst this; rfl
  | cons t ts ih =>
    cases rs with
    | nil => simp at hlen
    | cons r rs =>
      have hlen' : ts.length = rs.length := by simpa using hlen
      cases r with
      | none => simpa [placedHits] using ih rs _ hlen'
      | some r => simp only [placedHits, List.map_cons, ih rs _ hlen']; simp

/-- two strictly ascending lists with the same members -/
theorem sorted_ext {β : Type} (a b : List (Nat × β)) (ha : a.Pairwise (fun x y => x.1 < y.1)) (hb : b.Pairwise (fun x y => x.1 < y.1))
    (h : ∀ x, x ∈ a ↔ x ∈ b) : a = b := by
  induction a generalizing b with
  | nil =>
    cases b with
    | nil => rfl
    | cons y b => exact absurd ((h y).2 (by simp)) (by simp)
  | cons x a ih =>
    cases b with
    | nil => exact absurd ((h x).1 (by simp)) (by simp)
    | cons y b =>
      rw [List.pairwise_cons] at ha hb
      have hxy : x = y := by
        rcases List.mem_cons.1 ((h x).1 (by simp)) with e | hx
        · exact e
        rcases List.mem_cons.1 ((h y).2 (by simp)) with e | hy
        · exact e.symm
        have h1 := hb.1 x hx
        have h2 := ha.1 y hy
        omega
      subst hxy
      congr 1
      apply ih b ha.2 hb.2
      intro z
      constructor
      · intro hz
        rcases List.mem_cons.1 ((h z).1 (by simp [hz])) with e | hz'
        · subst e; exact absurd (ha.1 _ hz) (Nat.lt_irrefl _)
        · exact hz'
      · intro hz
        rcases List.mem_cons.1 ((h z).2 (by simp [hz])) with e | hz'
        · subst e; exact absurd (hb.1 _ hz) (Nat.lt_irrefl _)
        · exact hz'

theorem all2_get {α β : Type} {R : α → β → Prop} {as : List α} {bs : List β} (h : All2 R as bs) (k : Nat) (a : α)
    (hk : as[k]? = some a) : ∃ b, bs[k]? = some b ∧ R a b := by
  induction h generalizing k with
  | nil => cases hk
  | cons h1 _ ih =>
    cases k with
    | zero => simp only [List.getElem?_cons_zero, Option.some.injEq] at hk; subst hk; exact ⟨_, by simp, h1⟩
    | succ k => simpa using ih k (by simpa using hk)

theorem all2_len {α β : Type} {R : α → β → Prop} {as : List α} {bs : List β} (h : All2 R as bs) : as.length = bs.length := by
  induction h with
  | nil => rfl
  | cons _ _ ih => simp [ih]

/-- The sorted matches of the group are what was read from the first start on. -/
theorem sortRaw_tpl (info : GInfo) (l : TplLine) (tpl : List TplLine) (ho : ∀ l' ∈ l :: tpl, l'.OK) (lines : List Str)
    (hl : ∀ t ∈ lines, '\n' ∉ t) (reads : List (Option (Nat × List (Str × Str)))) (hr : All2 (Reads (l :: tpl)) lines reads) (i : Nat)
    (hi : i < lines.length) (hmin : ∀ k t v, lines[k]? = some t → l.Fits t v → i ≤ k) :
    sortRaw (logDict [] (grpLog info l tpl lines i)) =
      placedHits info (l :: tpl) (posOf lines i) (lines.drop i) (reads.drop i) := by
  have hg := good_logDict [] (grpLog info l tpl lines i) good_nil
  apply sorted_ext _ _ (sortRaw_strict _ hg.1) (placedHits_sorted _ _ _ _ _)
  rintro ⟨p, hs⟩
  rw [(sortRaw_perm _).mem_iff, mem_logDict, mem_placedHits]
  constructor
  · rintro ⟨rfl, hne⟩
    have hex : ∃ k t, i ≤ k ∧ lines[k]? = some t ∧ p = posOf lines k := by
      rw [grpLog, atPos_append, atPos_normLog] at hne
      by_cases h1 : atPos (tplLog info 0 l 0 (finditer (TplRe l) (nlText lines))) p = []
      · rw [h1, List.nil_append] at hne
        obtain ⟨x, hx⟩ := List.exists_mem_of_ne_nil _ hne
        obtain ⟨l', hl', hx⟩ := List.mem_flatMap.1 hx
        obtain ⟨k, t, v, hk, hp, _⟩ := atPos_tplLog_ne info 1 l' (ho l' (by simp [hl'])) (posOf lines i) (lines.drop i)
          (fun t ht => hl t (List.mem_of_mem_drop ht)) p (List.ne_nil_of_mem hx)
        rw [List.getElem?_drop] at hk
        exact ⟨i + k, t, by omega, hk, by rw [hp, posOf_add lines i k (by omega)]⟩
      · obtain ⟨k, t, v, hk, hp, hf⟩ := atPos_tplLog_ne info 0 l (ho l (by simp)) 0 lines hl p h1
        exact ⟨k, t, hmin k t v hk hf, hk, by omega⟩
    obtain ⟨k, t, hik, hk, rfl⟩ := hex
    obtain ⟨r, hrk, hread⟩ := all2_get hr k t hk
    have hat := atPos_grpLog info l tpl ho lines hl i k t hik hk r hread
    rw [hat] at hne ⊢
    cases r with
    | none => exact absurd rfl hne
    | some r =>
      refine ⟨k - i, t, r, ?_, ?_, ?_, rfl⟩
      · rw [List.getElem?_drop, show i + (k - i) = k by omega]; exact hk
      · rw [List.getElem?_drop, show i + (k - i) = k by omega]; exact hrk
      · rw [← posOf_add lines i (k - i) (by omega), show i + (k - i) = k by omega]
  · rintro ⟨k, t, r, hk, hrk, rfl, rfl⟩
    rw [List.getElem?_drop] at hk hrk
    obtain ⟨r', hrk', hread⟩ := all2_get hr (i + k) t hk
    rw [hrk] at hrk'
    cases hrk'
    have hat := atPos_grpLog info l tpl ho lines hl i (i + k) t (by omega) hk (some r) hread
    rw [← posOf_add lines i k (by omega), hat]
    exact ⟨rfl, by simp⟩

end TTP
