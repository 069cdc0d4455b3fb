import Verif.Proofs.Rich3
import Verif.Proofs.Whole3
/-! # Lemmas: the matches of a group with rich lines -/

namespace TTP
open Py Spec Re

theorem judged_run (mf : MatchFns) (env : Env) (fs : List FnCall) (v : Val) (out : Option Val) (h : Judged mf env fs v out) :
    runMatchFns mf fs env v none = .ok (env, out.map (fun w => (w, none))) := by
  induction h with
  | done v => rfl
  | go h1 h2 _ ih =>
    simp only [runMatchFns, h1, ok_bind]
    rcases h2 with rfl | rfl
    · simpa [addFlag] using ih
    · simpa [addFlag] using ih
  | no h1 => simp only [runMatchFns, h1, ok_bind]; rfl

theorem valued_check (mf : MatchFns) (vars : Dict Str (Str × List FnCall)) (env : Env) (vals : List (RVar × Str)) (out : Option (Dict Key Val))
    (h : Valued mf env vals out) (hv : ∀ v ∈ vals.map (·.1), Dict.get? vars v.name = some (v.name, v.checks))
    (hn : (vals.map (fun vu => vu.1.name)).Nodup) (acc : Dict Key Val) (hacc : ∀ v ∈ vals.map (·.1), Key.s v.name ∉ Dict.keys acc) :
    checkVars mf vars (capsOf vals) env acc = .ok (env, out.map (acc ++ ·)) := by
  induction h generalizing acc with
  | nil => simp [capsOf, checkVars, pure_ok]
  | @go v u w vals d h1 _ ih =>
    simp only [List.map_cons, List.nodup_cons, List.mem_cons, forall_eq_or_imp] at hn hv hacc
    have hset : Dict.set acc (.s v.name) w = acc ++ [(.s v.name, w)] := Dict.set_of_not_mem _ _ _ hacc.1
    simp only [capsOf, List.map_cons, checkVars, hv.1, judged_run _ _ _ _ _ h1, ok_bind, Option.map_some, Option.getD_none, hset]
    rw [show Dict.update (acc ++ [(Key.s v.name, w)]) [] = acc ++ [(Key.s v.name, w)] from rfl]
    have := ih hv.2 hn.2 (acc ++ [(Key.s v.name, w)]) (by
      intro x hx hk
      simp only [Dict.keys, List.map_append, List.map_cons, List.map_nil, List.mem_append, List.mem_singleton, Key.s.injEq] at hk
      rcases hk with hk | e
      · exact hacc.2 x hx hk
      · apply hn.1
        obtain ⟨y, hy, rfl⟩ := List.mem_map.1 hx
        rw [← e]
        exact List.mem_map.2 ⟨y, hy, rfl⟩)
    rw [capsOf] at this
    rw [this]
    simp
  | @no v u vals h1 =>
    simp only [List.map_cons, List.mem_cons, forall_eq_or_imp] at hv
    simp only [capsOf, List.map_cons, checkVars, hv.1, judged_run _ _ _ _ _ h1, ok_bind, Option.map_none]
    rfl
  | @later v u w vals h1 _ ih =>
    simp only [List.map_cons, List.nodup_cons, List.mem_cons, forall_eq_or_imp] at hn hv hacc
    have hset : Dict.set acc (.s v.name) w = acc ++ [(.s v.name, w)] := Dict.set_of_not_mem _ _ _ hacc.1
    simp only [capsOf, List.map_cons, checkVars, hv.1, judged_run _ _ _ _ _ h1, ok_bind, Option.map_some, Option.getD_none, hset]
    rw [show Dict.update (acc ++ [(Key.s v.name, w)]) [] = acc ++ [(Key.s v.name, w)] from rfl]
    have := ih hv.2 hn.2 (acc ++ [(Key.s v.name, w)]) (by
      intro x hx hk
      simp only [Dict.keys, List.map_append, List.map_cons, List.map_nil, List.mem_append, List.mem_singleton, Key.s.injEq] at hk
      rcases hk with hk | e
      · exact hacc.2 x hx hk
      · apply hn.1
        obtain ⟨y, hy, rfl⟩ := List.mem_map.1 hx
        rw [← e]
        exact List.mem_map.2 ⟨y, hy, rfl⟩)
    rw [capsOf] at this
    rw [this]
    simp

theorem valued_WF (mf : MatchFns) (env : Env) (vals : List (RVar × Str)) (out : Option (Dict Key Val)) (h : Valued mf env vals out) :
    ∀ d, out = some d → Dict.keys d = vals.map (fun vu => Key.s vu.1.name) := by
  induction h with
  | nil => intro d e; cases e; rfl
  | go _ _ ih =>
    intro d e; cases e
    have := ih _ rfl
    simp only [Dict.keys, List.map_cons] at this ⊢
    rw [this]
  | no => intro d e; cases e
  | later => intro d e; cases e

theorem fits_vars (l : RLine) (t : Str) (vals : List (RVar × Str)) (h : l.Fits t vals) : vals.map (·.1) = varsOf l.pieces := by
  obtain ⟨x, b, r, hf, _⟩ := h
  exact fills_vars _ _ _ hf

theorem fits_nodup (ctx : LoadCtx) (l : RLine) (ho : l.OK ctx) (t : Str) (vals : List (RVar × Str)) (h : l.Fits t vals) :
    (vals.map (fun vu => vu.1.name)).Nodup := by
  have := ho.names
  rw [← fits_vars l t vals h, List.map_map] at this
  exact this

theorem checkMatch_rich (mf : MatchFns) (env : Env) (ctx : LoadCtx) (l : RLine) (ho : l.OK ctx) (j : Nat) (t : Str) (vals : List (RVar × Str))
    (hf : l.Fits t vals) (out : Option (Dict Key Val)) (hv : Valued mf env vals out) (m : Re.Match) (hm : m.caps = capsOf vals) :
    checkMatch mf (richAt j l) m env = .ok (env, out) := by
  have hvars := fits_vars l t vals hf
  have hne : m.caps.isEmpty = false := by
    cases hc : m.caps with
    | nil =>
      rw [hm] at hc
      have : vals = [] := by
        cases vals with
        | nil => rfl
        | cons => simp [capsOf] at hc
      subst this
      exact absurd hvars.symm ho.some
    | cons => rfl
  unfold checkMatch matchValues
  simp only [hne, Bool.false_eq_true, if_false, richAt_vars]
  rw [hm]
  have := valued_check mf (richRx l).vars env vals out hv
    (fun v hv' => richRx_vars ctx l ho v (by rw [← hvars]; exact hv')) (fits_nodup ctx l ho t vals hf) [] (by simp [Dict.keys])
  rw [this]
  cases out <;> simp

theorem posOf_inj (lines : List Str) (a b : Nat) (ha : a ≤ lines.length) (hb : b ≤ lines.length) (h : posOf lines a = posOf lines b) :
    a = b := by
  rcases Nat.lt_trichotomy a b with h' | h' | h'
  · have := posOf_lt lines a b h' hb; omega
  · exact h'
  · have := posOf_lt lines b a h' ha; omega

theorem posOf_le (lines : List Str) (a b : Nat) (hb : b ≤ lines.length) (h : a ≤ b) : posOf lines a ≤ posOf lines b := by
  rcases Nat.lt_or_eq_of_le h with h | rfl
  · exact Nat.le_of_lt (posOf_lt lines a b h hb)
  · exact Nat.le_refl _

theorem posOf_succ (lines : List Str) (k : Nat) (t : Str) (h : lines[k]? = some t) : posOf lines (k + 1) = posOf lines k + (t.length + 1) := by
  obtain ⟨hk, e⟩ := List.getElem?_eq_some_iff.1 h
  simp only [posOf]
  rw [List.take_add_one, h]
  simp

/-- what is read, by number of the text line -/
abbrev Readings := List (Option (Nat × Option (Dict Key Val)))

/-- the match that a reading gives: rejected lines that are no start lines give nothing -/
def hitFor (info : GInfo) (tpl : List RLine) (r : Nat × Option (Dict Key Val)) : Option RawHit :=
  if kindAt tpl r.1 ≠ .start ∧ r.2 = none then none else some ⟨info, richAt r.1 ((tpl[r.1]?).getD ⟨[], [], []⟩), r.2⟩

section
variable (mf : MatchFns) (env : Env) (ctx : LoadCtx) (tpl : List RLine) (info : GInfo)

/-- the log holds the matches of the template lines with numbers from `J` -/
structure LogFor (lines : List Str) (reads : Readings) (start : Nat) (J : List Nat) (log : List (Nat × RawHit)) : Prop where
  pos : ∀ e ∈ log, ∃ k, k < lines.length ∧ e.1 = start + posOf lines k
  num : ∀ (k : Nat) (r : Option (Nat × Option (Dict Key Val))), reads[k]? = some r → atPos log (start + posOf lines k) =
    ((r.filter (fun x => decide (x.1 ∈ J))).bind (hitFor info tpl)).toList

theorem logFor_nil (lines : List Str) (reads : Readings) (start : Nat) : LogFor tpl info lines reads start [] [] := by
  refine ⟨by simp, ?_⟩
  intro k r _
  cases r <;> simp [atPos]

theorem logFor_append (lines : List Str) (reads : Readings) (start : Nat) (J J' : List Nat) (a b : List (Nat × RawHit))
    (ha : LogFor tpl info lines reads start J a) (hb : LogFor tpl info lines reads start J' b) (hd : ∀ j ∈ J, j ∉ J') :
    LogFor tpl info lines reads start (J ++ J') (a ++ b) := by
  refine ⟨?_, ?_⟩
  · intro e he
    rcases List.mem_append.1 he with h | h
    · exact ha.pos e h
    · exact hb.pos e h
  · intro k r hr
    rw [atPos_append, ha.num k r hr, hb.num k r hr]
    cases r with
    | none => simp
    | some r =>
      by_cases h1 : r.1 ∈ J
      · have h2 := hd _ h1
        simp [Option.filter, h1, h2]
      · by_cases h2 : r.1 ∈ J' <;> simp [Option.filter, h1, h2]

/-- the matches of one line -/
theorem finditer_rich (l : RLine) (ho : l.OK ctx) (j : Nat) (hj : tpl[j]? = some l) (lines : List Str) (hl : ∀ t ∈ lines, '\n' ∉ t)
    (p : Str) (hp : '\n' ∉ p) (reads : Readings) (hr : All2 (RichReads mf env tpl) lines reads) :
    (∀ m ∈ finditer (richAt j l).re (nlCut lines p), ∃ k t out, lines[k]? = some t ∧ reads[k]? = some (some (j, out)) ∧ m.start = posOf lines k ∧
      checkMatch mf (richAt j l) m env = .ok (env, out) ∧ m.start < m.stop ∧ m.stop ≤ m.start + 1 + t.length) ∧
    ∀ (k : Nat) out, reads[k]? = some (some (j, out)) → ∃ m ∈ finditer (richAt j l).re (nlCut lines p), m.start = posOf lines k := by
  have hfi := reader_finditer (rich_reader ctx l ho) lines hl p hp
  rw [richAt_re]
  constructor
  · intro m hm
    obtain ⟨k, t, hk, hs, ⟨vals, hf, hc⟩, h1, h2⟩ := hfi.1 m hm
    obtain ⟨r, hrk, hread⟩ := all2_get hr k t hk
    cases r with
    | none => exact absurd hf (hread l (List.mem_of_getElem? hj) vals)
    | some r =>
      obtain ⟨j', out⟩ := r
      obtain ⟨l', vals', hj', hf', hv, hu⟩ := hread
      obtain ⟨rfl, rfl⟩ := hu j l vals hj hf
      exact ⟨k, t, out, hk, hrk, hs, checkMatch_rich mf env ctx l ho _ t _ hf out hv m hc, h1, h2⟩
  · intro k out hrk
    have hklt : k < lines.length := by
      rw [all2_len hr]
      exact (List.getElem?_eq_some_iff.1 hrk).1
    obtain ⟨r, h1, h2⟩ := all2_get hr k lines[k] (List.getElem?_eq_getElem hklt)
    rw [hrk] at h1
    cases h1
    obtain ⟨l', vals, hj', hf, hv, _⟩ := h2
    rw [hj] at hj'
    cases hj'
    exact hfi.2 k _ _ (List.getElem?_eq_getElem hklt) ⟨vals, hf, rfl⟩

theorem kindAt_get (j : Nat) (l : RLine) (hj : tpl[j]? = some l) : kindAt tpl j = kindOf j l := by simp [kindAt, hj]

theorem richAt_start (l : RLine) (ho : l.OK ctx) (j : Nat) : (richAt j l).action.isStart = decide (kindOf j l = .start) := by
  rw [(richRx_action ctx l ho j).1]
  cases kindOf j l <;> rfl

/-- The log of one line. -/
theorem checkMatches_rich (l : RLine) (ho : l.OK ctx) (j : Nat) (hj : tpl[j]? = some l) (lines : List Str) (hl : ∀ t ∈ lines, '\n' ∉ t)
    (p : Str) (hp : '\n' ∉ p) (reads : Readings) (hr : All2 (RichReads mf env tpl) lines reads) (start : Nat) (r : RawDict) :
    ∃ log, checkMatches mf info (richAt j l) start (finditer (richAt j l).re (nlCut lines p)) env r = .ok (env, logDict r log) ∧
      LogFor tpl info lines reads start [j] log := by
  have hfi := finditer_rich mf env ctx tpl l ho j hj lines hl p hp reads hr
  have hasc := scan_ascending (richAt j l).re (nlCut lines p) 0 0
  have key : ∀ (ms : List Re.Match) (r : RawDict), ms.Pairwise (fun a b => a.start < b.start ∧ a.stop ≤ b.start) →
      (∀ m ∈ ms, ∃ k t out, lines[k]? = some t ∧ reads[k]? = some (some (j, out)) ∧ m.start = posOf lines k ∧
        checkMatch mf (richAt j l) m env = .ok (env, out)) →
      ∃ log, checkMatches mf info (richAt j l) start ms env r = .ok (env, logDict r log) ∧
        (∀ e ∈ log, ∃ m ∈ ms, e.1 = start + m.start) ∧
        ∀ m ∈ ms, ∀ (k : Nat) out, reads[k]? = some (some (j, out)) → m.start = posOf lines k →
          atPos log (start + m.start) = (hitFor info tpl (j, out)).toList := by
    intro ms
    induction ms with
    | nil => intro r _ _; exact ⟨[], rfl, by simp, by simp⟩
    | cons m ms ih =>
      intro r hpw hall
      rw [List.pairwise_cons] at hpw
      obtain ⟨k, t, out, hk, hrk, hs, hc⟩ := hall m (by simp)
      have hkl : k < lines.length := (List.getElem?_eq_some_iff.1 hk).1
      have same : ∀ (k' : Nat) out', reads[k']? = some (some (j, out')) → m.start = posOf lines k' → out' = out := by
        intro k' out' h1 h2
        have hk' : k' < lines.length := by rw [all2_len hr]; exact (List.getElem?_eq_some_iff.1 h1).1
        have := posOf_inj lines k k' (by omega) (by omega) (by omega)
        subst this
        rw [h1] at hrk
        simpa using hrk
      have none_after : ∀ (log : List (Nat × RawHit)), (∀ e ∈ log, ∃ m' ∈ ms, e.1 = start + m'.start) →
          atPos log (start + m.start) = [] := by
        intro log hlog
        simp only [atPos, List.map_eq_nil_iff, List.filter_eq_nil_iff]
        intro e he
        obtain ⟨m', hm', e1⟩ := hlog e he
        have := (hpw.1 m' hm').1
        simp; omega
      simp only [checkMatches, hc, ok_bind]
      by_cases hskip : (out.isNone && !(richAt j l).action.isStart) = true
      · obtain ⟨log, e1, e2, e3⟩ := ih r hpw.2 (fun m' h' => hall m' (by simp [h']))
        rw [if_pos hskip]
        refine ⟨log, e1, ?_, ?_⟩
        · intro e he
          obtain ⟨m', hm', e'⟩ := e2 e he
          exact ⟨m', by simp [hm'], e'⟩
        · intro m' hm' k' out' h1 h2
          rcases List.mem_cons.1 hm' with rfl | hm'
          · have := same k' out' h1 h2
            subst this
            rw [none_after log e2]
            rw [richAt_start ctx l ho] at hskip
            simp only [Bool.and_eq_true, Option.isNone_iff_eq_none, Bool.not_eq_true', decide_eq_false_iff_not] at hskip
            rw [hitFor, if_pos ⟨by rw [kindAt_get tpl j l hj]; exact hskip.2, hskip.1⟩]
            rfl
          · exact e3 m' hm' k' out' h1 h2
      · obtain ⟨log, e1, e2, e3⟩ := ih (addRaw r (start + m.start) ⟨info, richAt j l, out⟩) hpw.2 (fun m' h' => hall m' (by simp [h']))
        rw [if_neg hskip]
        refine ⟨(start + m.start, ⟨info, richAt j l, out⟩) :: log, ?_, ?_, ?_⟩
        · rw [e1]; rfl
        · intro e he
          rcases List.mem_cons.1 he with rfl | he
          · exact ⟨m, by simp, rfl⟩
          · obtain ⟨m', hm', e'⟩ := e2 e he
            exact ⟨m', by simp [hm'], e'⟩
        · intro m' hm' k' out' h1 h2
          rcases List.mem_cons.1 hm' with rfl | hm'
          · have := same k' out' h1 h2
            subst this
            have hna := none_after log e2
            simp only [atPos, List.filter_cons, beq_self_eq_true, if_true, List.map_cons] at hna ⊢
            rw [hna]
            rw [richAt_start ctx l ho] at hskip
            rw [hitFor, if_neg]
            · simp [hj]
            · rintro ⟨h3, h4⟩
              apply hskip
              rw [kindAt_get tpl j l hj] at h3
              simp only [] at h4
              simp [h3, h4]
          · have hne : (start + m.start == start + m'.start) = false := by
              have := (hpw.1 m' hm').1
              simp; omega
            have := e3 m' hm' k' out' h1 h2
            simp only [atPos, List.filter_cons, hne, Bool.false_eq_true, if_false] at this ⊢
            exact this
  obtain ⟨log, e1, e2, e3⟩ := key _ r hasc (fun m hm => by
    obtain ⟨k, t, out, h1, h2, h3, h4, _⟩ := hfi.1 m hm
    exact ⟨k, t, out, h1, h2, h3, h4⟩)
  refine ⟨log, e1, ?_, ?_⟩
  · intro e he
    obtain ⟨m, hm, e'⟩ := e2 e he
    obtain ⟨k, t, out, h1, h2, h3, _⟩ := hfi.1 m hm
    exact ⟨k, (List.getElem?_eq_some_iff.1 h1).1, by omega⟩
  · intro k rd hrk
    have hkl : k < lines.length := by rw [all2_len hr]; exact (List.getElem?_eq_some_iff.1 hrk).1
    by_cases hc : ∃ out, rd = some (j, out)
    · obtain ⟨out, rfl⟩ := hc
      obtain ⟨m, hm, hs⟩ := hfi.2 k out hrk
      rw [← hs, e3 m hm k out hrk hs]
      simp [Option.filter]
    · have : atPos log (start + posOf lines k) = [] := by
        simp only [atPos, List.map_eq_nil_iff, List.filter_eq_nil_iff]
        intro e he heq
        obtain ⟨m, hm, e'⟩ := e2 e he
        obtain ⟨k', t, out, h1, h2, h3, _⟩ := hfi.1 m hm
        have heq : e.1 = start + posOf lines k := by simpa using heq
        have hk' : k' < lines.length := (List.getElem?_eq_some_iff.1 h1).1
        have := posOf_inj lines k k' (by omega) (by omega) (by omega)
        subst this
        rw [hrk] at h2
        exact hc ⟨out, by simpa using h2⟩
      rw [this]
      cases rd with
      | none => rfl
      | some x =>
        have : x.1 ≠ j := by rintro rfl; exact hc ⟨x.2, rfl⟩
        simp [Option.filter, this]

/-- template lines with their numbers -/
structure Pick (js : List (Nat × RLine)) : Prop where
  get : ∀ jl ∈ js, tpl[jl.1]? = some jl.2
  nodup : (js.map (·.1)).Nodup

theorem pick_cons {jl : Nat × RLine} {js : List (Nat × RLine)} (h : Pick tpl (jl :: js)) : Pick tpl js :=
  ⟨fun x hx => h.get x (by simp [hx]), (List.nodup_cons.1 h.nodup).2⟩

theorem pick_head {jl : Nat × RLine} {js : List (Nat × RLine)} (h : Pick tpl (jl :: js)) : ∀ j ∈ [jl.1], j ∉ js.map (·.1) := by
  intro j hj
  simp only [List.mem_singleton] at hj
  subst hj
  exact (List.nodup_cons.1 h.nodup).1

theorem pick_ok (ho : ∀ l ∈ tpl, l.OK ctx) {js : List (Nat × RLine)} (h : Pick tpl js) (jl : Nat × RLine) (hm : jl ∈ js) : jl.2.OK ctx :=
  ho _ (List.mem_of_getElem? (h.get jl hm))

theorem runNormals_rich (ho : ∀ l ∈ tpl, l.OK ctx) (text : Str) (lines : List Str) (hl : ∀ t ∈ lines, '\n' ∉ t)
    (p : Str) (hp : '\n' ∉ p) (reads : Readings) (hr : All2 (RichReads mf env tpl) lines reads) (start : Nat) (stop : Option Nat)
    (hs : slice text start stop = nlCut lines p) (js : List (Nat × RLine)) (hj : Pick tpl js) (r : RawDict) :
    ∃ log, runNormals mf text info start stop (js.map (fun jl => richAt jl.1 jl.2)) env r = .ok (env, logDict r log) ∧
      LogFor tpl info lines reads start (js.map (·.1)) log := by
  induction js generalizing r with
  | nil => exact ⟨[], rfl, logFor_nil tpl info lines reads start⟩
  | cons jl js ih =>
    obtain ⟨log, e1, h1⟩ := checkMatches_rich mf env ctx tpl info jl.2 (pick_ok ctx tpl ho hj jl (by simp)) jl.1 (hj.get jl (by simp)) lines hl p hp reads
      hr start r
    obtain ⟨log', e2, h2⟩ := ih (pick_cons tpl hj) (logDict r log)
    refine ⟨log ++ log', ?_, logFor_append tpl info lines reads start [jl.1] _ log log' h1 h2 (pick_head tpl hj)⟩
    simp only [List.map_cons, runNormals, hs, e1, ok_bind, e2, logDict_append]

/-- a text line is read as one of these template lines -/
def IsOf (reads : Readings) (js : List (Nat × RLine)) (k : Nat) : Prop := ∃ j out, reads[k]? = some (some (j, out)) ∧ j ∈ js.map (·.1)

theorem isOf_cons (reads : Readings) (jl : Nat × RLine) (js : List (Nat × RLine)) (k : Nat) :
    IsOf reads (jl :: js) k ↔ (∃ out, reads[k]? = some (some (jl.1, out))) ∨ IsOf reads js k := by
  constructor
  · rintro ⟨j, out, h, hm⟩
    rcases List.mem_cons.1 hm with rfl | hm
    · exact Or.inl ⟨out, h⟩
    · exact Or.inr ⟨j, out, h, hm⟩
  · rintro (⟨out, h⟩ | ⟨j, out, h, hm⟩)
    · exact ⟨_, out, h, by simp⟩
    · exact ⟨j, out, h, List.mem_cons_of_mem _ hm⟩

/-- position of the last match -/
theorem last_bound (ms : List Re.Match) (m0 : Re.Match) (hasc : (m0 :: ms).Pairwise (fun a b => a.start < b.start ∧ a.stop ≤ b.start)) :
    (m0 :: ms).getLastD m0 ∈ m0 :: ms ∧ ∀ m ∈ m0 :: ms, m.start ≤ ((m0 :: ms).getLastD m0).start := by
  induction ms generalizing m0 with
  | nil => simp
  | cons m1 ms ih =>
    rw [List.pairwise_cons] at hasc
    have e : (m0 :: m1 :: ms).getLastD m0 = (m1 :: ms).getLastD m1 := by simp [List.getLastD]
    rw [e]
    obtain ⟨h1, h2⟩ := ih m1 hasc.2
    refine ⟨List.mem_cons_of_mem _ h1, ?_⟩
    intro m hm
    rcases List.mem_cons.1 hm with rfl | hm
    · exact Nat.le_of_lt (hasc.1 _ h1).1
    · exact h2 m hm

/-- smaller of the start found so far and a position -/
def minStart : Option Nat → Nat → Nat
  | none, p => p
  | some s, p => if s > p then p else s

theorem runStarts_cons (text : Str) (start : Nat) (stop : Option Nat) (R : LineRx) (Rs : List LineRx) (si : StartInfo) (env : Env) (r : RawDict)
    (m0 : Re.Match) (ms : List Re.Match) (h : finditer R.re (slice text start stop) = m0 :: ms) :
    runStarts mf text info start stop (R :: Rs) si env r = (checkMatches mf info R start (m0 :: ms) env r >>= fun er =>
      runStarts mf text info start stop Rs ⟨some (minStart si.s m0.start),
        if si.se < ((m0 :: ms).getLastD m0).start && !R.isLine then ((m0 :: ms).getLastD m0).stop + start else si.se⟩ er.1 er.2) := by
  obtain ⟨s, se⟩ := si
  simp only [runStarts, h]
  cases s <;> rfl

theorem runStarts_rich (ho : ∀ l ∈ tpl, l.OK ctx) (text : Str) (lines : List Str) (hl : ∀ t ∈ lines, '\n' ∉ t)
    (reads : Readings) (hr : All2 (RichReads mf env tpl) lines reads)
    (start : Nat) (hs : slice text start none = nlCut lines []) (js : List (Nat × RLine)) (hj : Pick tpl js) (si : StartInfo) (r : RawDict) :
    ∃ log si', runStarts mf text info start none (js.map (fun jl => richAt jl.1 jl.2)) si env r = .ok (si', env, logDict r log) ∧
      LogFor tpl info lines reads start (js.map (·.1)) log ∧
      (si'.s = none ↔ si.s = none ∧ ∀ k, ¬ IsOf reads js k) ∧
      (∀ s, si'.s = some s → (si.s = some s ∨ ∃ k, IsOf reads js k ∧ s = posOf lines k) ∧ (∀ s0, si.s = some s0 → s ≤ s0) ∧
        ∀ k, IsOf reads js k → s ≤ posOf lines k) ∧
      si.se ≤ si'.se ∧ ∀ k, IsOf reads js k → posOf lines k ≤ si'.se := by
  induction js generalizing si r with
  | nil =>
    refine ⟨[], si, rfl, logFor_nil tpl info lines reads start, ?_, ?_, Nat.le_refl _, ?_⟩
    · simp [IsOf]
    · intro s h
      refine ⟨Or.inl h, ?_, by rintro k ⟨_, _, _, hm⟩; cases hm⟩
      intro s0 h0; rw [h] at h0; cases h0; exact Nat.le_refl _
    · rintro k ⟨_, _, _, hm⟩; cases hm
  | cons jl js ih =>
    have hok := pick_ok ctx tpl ho hj jl (by simp)
    have hget := hj.get jl (by simp)
    obtain ⟨log, e1, h1⟩ := checkMatches_rich mf env ctx tpl info jl.2 hok jl.1 hget lines hl [] (by simp) reads hr start r
    have hfi := finditer_rich mf env ctx tpl jl.2 hok jl.1 hget lines hl [] (by simp) reads hr
    have hasc := scan_ascending (richAt jl.1 jl.2).re (nlCut lines []) 0 0
    cases hm : finditer (richAt jl.1 jl.2).re (nlCut lines []) with
    | nil =>
      rw [hm] at e1 hfi
      have e0 : logDict r log = r := by
        simp only [checkMatches, pure_ok, Except.ok.injEq, Prod.mk.injEq, true_and] at e1
        exact e1.symm
      have hno : ∀ (k : Nat) out, ¬ reads[k]? = some (some (jl.1, out)) := by
        intro k out h
        obtain ⟨m, hm', _⟩ := hfi.2 k out h
        cases hm'
      obtain ⟨log', si', e2, h2, h3, h4, h5, h6⟩ := ih (pick_cons tpl hj) si (logDict r log)
      have hio : ∀ k, IsOf reads (jl :: js) k ↔ IsOf reads js k := by
        intro k
        rw [isOf_cons]
        constructor
        · rintro (⟨out, h⟩ | h)
          · exact absurd h (hno k out)
          · exact h
        · exact Or.inr
      refine ⟨log ++ log', si', ?_, logFor_append tpl info lines reads start [jl.1] _ log log' h1 h2 (pick_head tpl hj), ?_, ?_, h5, ?_⟩
      · simp only [List.map_cons, runStarts, hs, hm]
        rw [logDict_append, ← e2, e0]
      · simp only [hio]; exact h3
      · simp only [hio]; exact h4
      · simp only [hio]; exact h6
    | cons m0 ms =>
      have hasc : (m0 :: ms).Pairwise (fun a b => a.start < b.start ∧ a.stop ≤ b.start) := by rw [← hm]; exact hasc
      rw [hm] at e1 hfi
      have hlast := last_bound ms m0 hasc
      obtain ⟨log', si', e2, h2, h3, h4, h5, h6⟩ := ih (pick_cons tpl hj) ⟨some (minStart si.s m0.start),
        if si.se < ((m0 :: ms).getLastD m0).start && !(richAt jl.1 jl.2).isLine then ((m0 :: ms).getLastD m0).stop + start else si.se⟩ (logDict r log)
      have hmin : ∀ m ∈ m0 :: ms, m0.start ≤ m.start := by
        intro m hm'
        rcases List.mem_cons.1 hm' with rfl | hm'
        · exact Nat.le_refl _
        · exact Nat.le_of_lt ((List.pairwise_cons.1 hasc).1 m hm').1
      have hse : si.se ≤ si'.se ∧ ((m0 :: ms).getLastD m0).start ≤ si'.se := by
        have hstop : ((m0 :: ms).getLastD m0).start ≤ ((m0 :: ms).getLastD m0).stop := by
          show _ ≤ _ + _
          omega
        simp only [richAt_isLine, Bool.not_false, Bool.and_true, decide_eq_true_eq] at h5
        split at h5
        · omega
        · omega
      refine ⟨log ++ log', si', ?_, logFor_append tpl info lines reads start [jl.1] _ log log' h1 h2 (pick_head tpl hj), ?_, ?_, hse.1, ?_⟩
      · rw [List.map_cons, runStarts_cons mf info text start none _ _ si env r m0 ms (by rw [hs]; exact hm), e1, ok_bind, e2, logDict_append]
      · obtain ⟨k, t, out, hk, hrk, _⟩ := hfi.1 m0 (by simp)
        constructor
        · intro h
          have := (h3.1 h).1
          cases this
        · rintro ⟨_, h⟩
          exact absurd ((isOf_cons reads jl js k).2 (Or.inl ⟨out, hrk⟩)) (h k)
      · intro s hsome
        obtain ⟨ha, hb, hc⟩ := h4 s hsome
        have hb' := hb _ rfl
        refine ⟨?_, ?_, ?_⟩
        · rcases ha with ha | ⟨k, hk, e⟩
          · simp only [Option.some.injEq] at ha
            obtain ⟨k, t, out, hk, hrk, hst, _⟩ := hfi.1 m0 (by simp)
            cases hsi : si.s with
            | none =>
              rw [hsi] at ha
              right
              exact ⟨k, (isOf_cons reads jl js k).2 (Or.inl ⟨out, hrk⟩), by rw [← ha, ← hst]; rfl⟩
            | some s0 =>
              rw [hsi] at ha
              simp only [minStart] at ha
              split at ha
              · right
                exact ⟨k, (isOf_cons reads jl js k).2 (Or.inl ⟨out, hrk⟩), by rw [← ha, ← hst]⟩
              · left; rw [ha]
          · right; exact ⟨k, (isOf_cons reads jl js k).2 (Or.inr hk), e⟩
        · intro s0 h0
          rw [h0] at hb'
          simp only [minStart] at hb'
          split at hb' <;> omega
        · intro k hk
          rcases (isOf_cons reads jl js k).1 hk with ⟨out, h⟩ | h
          · obtain ⟨m, hm', e⟩ := hfi.2 k out h
            have h7 := hmin m hm'
            rw [← e]
            cases hsi : si.s with
            | none => rw [hsi] at hb'; simp only [minStart] at hb'; omega
            | some s0 =>
              rw [hsi] at hb'
              simp only [minStart] at hb'
              split at hb' <;> omega
          · exact hc k h
      · intro k hk
        rcases (isOf_cons reads jl js k).1 hk with ⟨out, h⟩ | h
        · obtain ⟨m, hm', e⟩ := hfi.2 k out h
          have h7 := hlast.2 m hm'
          omega
        · exact h6 k h

/-- is the end of the last match taken -/
def newEnd (se : Nat) (e : Option Nat) (v : Nat) : Option Nat :=
  if (match e with
    | none => true
    | some e => decide (e < v)) && decide (v > se) then some v else e

theorem runEnds_cons (text : Str) (start : Nat) (stop : Option Nat) (se : Nat) (R : LineRx) (Rs : List LineRx) (e : Option Nat) (env : Env)
    (r : RawDict) (m0 : Re.Match) (ms : List Re.Match) (h : finditer R.re (slice text start stop) = m0 :: ms) :
    runEnds mf text info start stop se (R :: Rs) e env r = (checkMatches mf info R start (m0 :: ms) env r >>= fun er =>
      runEnds mf text info start stop se Rs (newEnd se e ((m0 :: ms).getLastD m0).stop) er.1 er.2) := by
  simp only [runEnds, h]
  cases e <;> rfl

theorem newEnd_spec (se : Nat) (e : Option Nat) (v : Nat) :
    (∀ w, newEnd se e v = some w → e = some w ∨ (w = v ∧ v > se)) ∧ (∀ w, e = some w → ∃ w', newEnd se e v = some w' ∧ w ≤ w') ∧
    (∀ w, newEnd se e v = some w → v ≤ w ∨ v ≤ se) ∧ (newEnd se e v = none → v ≤ se) := by
  cases e with
  | none =>
    simp only [newEnd, Bool.true_and, decide_eq_true_eq]
    split
    · rename_i h
      refine ⟨?_, by simp, ?_, by simp⟩
      · intro w hw; right; cases hw; exact ⟨rfl, h⟩
      · intro w hw; cases hw; exact Or.inl (Nat.le_refl _)
    · rename_i h
      refine ⟨by simp, by simp, by simp, fun _ => by omega⟩
  | some e =>
    simp only [newEnd, Bool.and_eq_true, decide_eq_true_eq]
    split
    · rename_i h
      refine ⟨?_, ?_, ?_, by simp⟩
      · intro w hw; right; cases hw; exact ⟨rfl, h.2⟩
      · intro w hw; cases hw; exact ⟨v, rfl, by omega⟩
      · intro w hw; cases hw; exact Or.inl (Nat.le_refl _)
    · rename_i h
      refine ⟨?_, ?_, ?_, by simp⟩
      · intro w hw; left; exact hw
      · intro w hw; cases hw; exact ⟨_, rfl, Nat.le_refl _⟩
      · intro w hw; cases hw; omega

/-- a place in a line that is read as one of these template lines -/
def EndAt (lines : List Str) (reads : Readings) (js : List (Nat × RLine)) (v : Nat) : Prop :=
  ∃ k t, IsOf reads js k ∧ lines[k]? = some t ∧ posOf lines k < v ∧ v ≤ posOf lines k + 1 + t.length

theorem runEnds_rich (ho : ∀ l ∈ tpl, l.OK ctx) (text : Str) (lines : List Str) (hl : ∀ t ∈ lines, '\n' ∉ t)
    (reads : Readings) (hr : All2 (RichReads mf env tpl) lines reads) (start : Nat) (se : Nat)
    (hs : slice text start none = nlCut lines []) (js : List (Nat × RLine)) (hj : Pick tpl js) (e : Option Nat)
    (he : ∀ v, e = some v → se < v) (r : RawDict) :
    ∃ log e', runEnds mf text info start none se (js.map (fun jl => richAt jl.1 jl.2)) e env r = .ok (e', env, logDict r log) ∧
      LogFor tpl info lines reads start (js.map (·.1)) log ∧
      (∀ v, e' = some v → se < v ∧ (e = some v ∨ EndAt lines reads js v) ∧ ∀ k, IsOf reads js k → posOf lines k < v) ∧
      (∀ v, e = some v → ∃ v', e' = some v' ∧ v ≤ v') := by
  induction js generalizing e r with
  | nil =>
    refine ⟨[], e, rfl, logFor_nil tpl info lines reads start, ?_, ?_⟩
    · intro v h
      exact ⟨he v h, Or.inl h, by rintro k ⟨_, _, _, hm⟩; cases hm⟩
    · intro v h; exact ⟨v, h, Nat.le_refl _⟩
  | cons jl js ih =>
    have hok := pick_ok ctx tpl ho hj jl (by simp)
    have hget := hj.get jl (by simp)
    obtain ⟨log, e1, h1⟩ := checkMatches_rich mf env ctx tpl info jl.2 hok jl.1 hget lines hl [] (by simp) reads hr start r
    have hfi := finditer_rich mf env ctx tpl jl.2 hok jl.1 hget lines hl [] (by simp) reads hr
    have hasc := scan_ascending (richAt jl.1 jl.2).re (nlCut lines []) 0 0
    cases hm : finditer (richAt jl.1 jl.2).re (nlCut lines []) with
    | nil =>
      rw [hm] at e1 hfi
      have e0 : logDict r log = r := by
        simp only [checkMatches, pure_ok, Except.ok.injEq, Prod.mk.injEq, true_and] at e1
        exact e1.symm
      have hno : ∀ (k : Nat) out, ¬ reads[k]? = some (some (jl.1, out)) := by
        intro k out h
        obtain ⟨m, hm', _⟩ := hfi.2 k out h
        cases hm'
      obtain ⟨log', e', e2, h2, h3, h4⟩ := ih (pick_cons tpl hj) e he (logDict r log)
      have hio : ∀ k, IsOf reads (jl :: js) k ↔ IsOf reads js k := by
        intro k
        rw [isOf_cons]
        constructor
        · rintro (⟨out, h⟩ | h)
          · exact absurd h (hno k out)
          · exact h
        · exact Or.inr
      refine ⟨log ++ log', e', ?_, logFor_append tpl info lines reads start [jl.1] _ log log' h1 h2 (pick_head tpl hj), ?_, h4⟩
      · simp only [List.map_cons, runEnds, hs, hm]
        rw [logDict_append, ← e2, e0]
      · simp only [EndAt, hio]; exact h3
    | cons m0 ms =>
      have hasc : (m0 :: ms).Pairwise (fun a b => a.start < b.start ∧ a.stop ≤ b.start) := by rw [← hm]; exact hasc
      rw [hm] at e1 hfi
      have hlast := last_bound ms m0 hasc
      obtain ⟨n1, n2, n3, n4⟩ := newEnd_spec se e ((m0 :: ms).getLastD m0).stop
      obtain ⟨log', e', e2, h2, h3, h4⟩ := ih (pick_cons tpl hj) (newEnd se e ((m0 :: ms).getLastD m0).stop) (by
        intro v hv
        rcases n1 v hv with h | ⟨rfl, h⟩
        · exact he v h
        · exact h) (logDict r log)
      refine ⟨log ++ log', e', ?_, logFor_append tpl info lines reads start [jl.1] _ log log' h1 h2 (pick_head tpl hj), ?_, ?_⟩
      · rw [List.map_cons, runEnds_cons mf info text start none se _ _ e env r m0 ms (by rw [hs]; exact hm), e1, ok_bind, e2, logDict_append]
      · intro v hv
        obtain ⟨a1, a2, a3⟩ := h3 v hv
        refine ⟨a1, ?_, ?_⟩
        · rcases a2 with a2 | ⟨k, t, hk, h⟩
          · rcases n1 v a2 with h | ⟨rfl, _⟩
            · exact Or.inl h
            · right
              obtain ⟨k, t, out, hk, hrk, hst, _, h5, h6⟩ := hfi.1 _ hlast.1
              exact ⟨k, t, (isOf_cons reads jl js k).2 (Or.inl ⟨out, hrk⟩), hk, by omega, by omega⟩
          · exact Or.inr ⟨k, t, (isOf_cons reads jl js k).2 (Or.inr hk), h⟩
        · intro k hk
          rcases (isOf_cons reads jl js k).1 hk with ⟨out, h⟩ | h
          · obtain ⟨m, hm', em⟩ := hfi.2 k out h
            have h7 := hlast.2 m hm'
            obtain ⟨_, _, _, _, _, _, _, h8, _⟩ := hfi.1 _ hlast.1
            have h9 : ((m0 :: ms).getLastD m0).stop ≤ v := by
              cases hne : newEnd se e ((m0 :: ms).getLastD m0).stop with
              | none => have := n4 hne; omega
              | some w =>
                obtain ⟨v', e3, e4⟩ := h4 w hne
                rw [hv] at e3
                cases e3
                rcases n3 w hne with h | h <;> omega
            omega
          · exact a3 k h
      · intro v hv
        obtain ⟨w, hw, h5⟩ := n2 v hv
        obtain ⟨v', hv', h6⟩ := h4 w hw
        exact ⟨v', hv', by omega⟩

end

end TTP
