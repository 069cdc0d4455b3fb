import Verif.Proofs.RichTree1
import Verif.Proofs.Rich5
import Verif.Proofs.Tree2
/-! # Lemmas: the matches of nested groups with rich lines -/

namespace TTP
open Py Spec Re

/-- how the lines of a text are read -/
abbrev RReading := List (Option RRead)

/-- start lines have the number 0 -/
def numOf (st : Bool) : Nat := if st then 0 else 1

/-- without the values -/
def bare (reads : RReading) : Reading := reads.map (Option.map (fun r => (r.1, numOf r.2.1, [])))

theorem bare_get (reads : RReading) (k : Nat) (g : List Str) (j : Nat) (v : List (Str × Str)) :
    (bare reads)[k]? = some (some (g, j, v)) ↔ v = [] ∧ ∃ st out, j = numOf st ∧ reads[k]? = some (some (g, st, out)) := by
  simp only [bare, List.getElem?_map]
  cases h : reads[k]? with
  | none => simp
  | some r =>
    cases r with
    | none => simp
    | some r =>
      obtain ⟨g', st, out⟩ := r
      simp only [Option.map_some, Option.some.injEq, Prod.mk.injEq]
      constructor
      · rintro ⟨rfl, rfl, rfl⟩; exact ⟨rfl, st, out, rfl, rfl, rfl, rfl⟩
      · rintro ⟨rfl, st', out', rfl, rfl, rfl, rfl⟩; exact ⟨rfl, rfl, rfl⟩

theorem bare_start (reads : RReading) (k : Nat) (g : List Str) (v : List (Str × Str)) :
    (bare reads)[k]? = some (some (g, 0, v)) ↔ v = [] ∧ ∃ out, reads[k]? = some (some (g, true, out)) := by
  rw [bare_get]
  constructor
  · rintro ⟨h, st, out, e, h2⟩
    cases st with
    | true => exact ⟨h, out, h2⟩
    | false => cases e
  · rintro ⟨h, out, h2⟩; exact ⟨h, true, out, rfl, h2⟩

theorem bare_length (reads : RReading) : (bare reads).length = reads.length := by simp [bare]

/-- the match counts and is not a rejected ordinary line -/
def RCounts (reads : RReading) (g : List Str) (st : Bool) (out : Option (Dict Key Val)) (k : Nat) : Prop :=
  Counts (bare reads) g (numOf st) k ∧ (st = true ∨ out ≠ none)

/-- this match is what was read -/
structure RHit (id : List Str → GId) (all : List (List Str × List RLine)) (g : List Str) (st : Bool) (out : Option (Dict Key Val)) (h : RawHit) : Prop where
  info : ∃ ls, (g, ls) ∈ all ∧ RInfoOk id g ls h.info
  action : h.line.action = if st then .start else .add
  isLine : h.line.isLine = false
  data : h.data = out

/-- The log has all matches of groups below one of the names, and no other. -/
structure RLogOk (id : List Str → GId) (all : List (List Str × List RLine)) (lines : List Str) (reads : RReading) (below : List Str → Prop)
    (log : List (Nat × RawHit)) : Prop where
  pos : ∀ x ∈ log, ∃ k, k < lines.length ∧ x.1 = posOf lines k
  yes : ∀ (k : Nat) g st out, reads[k]? = some (some (g, st, out)) → below g → RCounts reads g st out k →
    ∃ h, atPos log (posOf lines k) = [h] ∧ RHit id all g st out h
  no : ∀ (k : Nat), k < lines.length → (∀ g st out, reads[k]? = some (some (g, st, out)) → ¬ (below g ∧ RCounts reads g st out k)) →
    atPos log (posOf lines k) = []

mutual
theorem rlisting_prefix (p : List Str) (T : RGroup) (x) (h : x ∈ T.listing p) : (p ++ [T.name]) <+: x.1 := by
  match T with
  | .mk n ls pad cs tail =>
    simp only [RGroup.listing, List.mem_cons] at h
    rcases h with rfl | h
    · exact List.prefix_refl _
    · obtain ⟨m, _, hm⟩ := rlistings_prefix (p ++ [n]) cs x h
      exact (List.prefix_append (p ++ [n]) [m]).trans hm
theorem rlistings_prefix (p : List Str) (cs : List RGroup) (x) (h : x ∈ richListings p cs) : ∃ n ∈ cs.map RGroup.name, (p ++ [n]) <+: x.1 := by
  match cs with
  | [] => cases h
  | c :: cs =>
    simp only [richListings, List.mem_append] at h
    rcases h with h | h
    · exact ⟨c.name, by simp, rlisting_prefix p c x h⟩
    · obtain ⟨n, h1, h2⟩ := rlistings_prefix p cs x h
      exact ⟨n, by simp [h1], h2⟩
end

/-! ## Readings of one group -/

theorem local_reads (mf : MatchFns) (env : Env) (all : List (List Str × List RLine)) (q : List Str) (ls : List RLine) (hq : (q, ls) ∈ all)
    (hun : ∀ ls', (q, ls') ∈ all → ls' = ls) (lines : List Str) (reads : RReading) (hr : All2 (RichReadsIn mf env all) lines reads) :
    ∃ loc, All2 (RichReads mf env ls) lines loc ∧
      (∀ (k : Nat) j out, loc[k]? = some (some (j, out)) → reads[k]? = some (some (q, decide (kindAt ls j = .start), out))) ∧
      (∀ (k : Nat) st out, reads[k]? = some (some (q, st, out)) → ∃ j, loc[k]? = some (some (j, out)) ∧ (st = true ↔ kindAt ls j = .start)) := by
  induction hr with
  | nil => exact ⟨[], .nil, by simp, by simp⟩
  | @cons t r lines reads h1 _ ih =>
    obtain ⟨loc, a1, a2, a3⟩ := ih
    have one : ∃ s, RichReads mf env ls t s ∧ (∀ j out, s = some (j, out) → r = some (q, decide (kindAt ls j = .start), out)) ∧
        (∀ st out, r = some (q, st, out) → ∃ j, s = some (j, out) ∧ (st = true ↔ kindAt ls j = .start)) := by
      cases r with
      | none => exact ⟨none, fun l hl vals => h1 q ls hq l hl vals, by simp, by simp⟩
      | some r =>
        obtain ⟨g, st, out⟩ := r
        obtain ⟨ls', j, l, vals, b1, b2, b3, b4, b5, b6⟩ := h1
        by_cases hg : g = q
        · subst hg
          have := hun ls' b1
          subst this
          have hk : kindAt ls' j = kindOf j l := by simp [kindAt, b2]
          refine ⟨some (j, out), ⟨l, vals, b2, b3, b4, fun i l' vals' c1 c2 => (b6 g ls' i l' vals' hq c1 c2).2⟩, ?_, ?_⟩
          · intro j' out' e
            simp only [Option.some.injEq, Prod.mk.injEq] at e
            obtain ⟨rfl, rfl⟩ := e
            simp only [Option.some.injEq, Prod.mk.injEq, true_and, and_true]
            rw [hk]
            cases st with
            | true => exact (decide_eq_true (b5.1 rfl)).symm
            | false => exact (decide_eq_false (fun h => by have := b5.2 h; cases this)).symm
          · intro st' out' e
            simp only [Option.some.injEq, Prod.mk.injEq, true_and] at e
            obtain ⟨rfl, rfl⟩ := e
            exact ⟨j, rfl, by rw [hk]; exact b5⟩
        · refine ⟨none, ?_, by simp, ?_⟩
          · intro l' hl' vals' hf
            obtain ⟨i, hi⟩ := List.getElem?_of_mem hl'
            exact hg (b6 q ls i l' vals' hq hi hf).1.symm
          · intro st' out' e
            simp only [Option.some.injEq, Prod.mk.injEq] at e
            exact absurd e.1 hg
    obtain ⟨s, s1, s2, s3⟩ := one
    refine ⟨s :: loc, .cons s1 a1, ?_, ?_⟩
    · intro k j out h
      cases k with
      | zero => simp only [List.getElem?_cons_zero, Option.some.injEq] at h ⊢; exact s2 j out h
      | succ k => exact a2 k j out (by simpa using h)
    · intro k st out h
      cases k with
      | zero => simp only [List.getElem?_cons_zero, Option.some.injEq] at h ⊢; exact s3 st out h
      | succ k => simpa using a3 k st out (by simpa using h)

/-! ## Logs by line of the text -/

section
variable (ls : List RLine) (info : GInfo)

theorem logFor_pos {lines : List Str} {loc : Readings} {i : Nat} {J : List Nat} {log : List (Nat × RawHit)} (hi : i ≤ lines.length)
    (h : LogFor ls info (lines.drop i) (loc.drop i) (posOf lines i) J log) : ∀ e ∈ log, ∃ k, k < lines.length ∧ i ≤ k ∧ e.1 = posOf lines k := by
  intro e he
  obtain ⟨k, hk, e1⟩ := h.pos e he
  refine ⟨i + k, ?_, by omega, ?_⟩
  · simp at hk; omega
  · rw [posOf_add lines i k hi]; exact e1

theorem logFor_low {lines : List Str} {loc : Readings} {i : Nat} {J : List Nat} {log : List (Nat × RawHit)} (hi : i ≤ lines.length)
    (h : LogFor ls info (lines.drop i) (loc.drop i) (posOf lines i) J log) (k : Nat) (hk : k < i) : atPos log (posOf lines k) = [] := by
  simp only [atPos, List.map_eq_nil_iff, List.filter_eq_nil_iff]
  intro e he heq
  obtain ⟨k', h1, h2, h3⟩ := logFor_pos ls info hi h e he
  have heq : e.1 = posOf lines k := by simpa using heq
  have := posOf_lt lines k k' (by omega) (by omega)
  omega

theorem logFor_get {lines : List Str} {loc : Readings} {i : Nat} {J : List Nat} {log : List (Nat × RawHit)} (hi : i ≤ lines.length)
    (h : LogFor ls info (lines.drop i) (loc.drop i) (posOf lines i) J log) (k : Nat) (hik : i ≤ k) (r) (hr : loc[k]? = some r) :
    atPos log (posOf lines k) = ((r.filter (fun x => decide (x.1 ∈ J))).bind (hitFor info ls)).toList := by
  have := h.num (k - i) r (by rw [List.getElem?_drop, show i + (k - i) = k by omega]; exact hr)
  rw [← posOf_add lines i (k - i) hi, show i + (k - i) = k by omega] at this
  exact this

theorem logFor_yes {lines : List Str} {loc : Readings} {i : Nat} {J : List Nat} {log : List (Nat × RawHit)} (hi : i ≤ lines.length)
    (h : LogFor ls info (lines.drop i) (loc.drop i) (posOf lines i) J log) (k : Nat) (hik : i ≤ k) (j : Nat) (out : Option (Dict Key Val))
    (hr : loc[k]? = some (some (j, out))) (hj : j ∈ J) (l : RLine) (hl : ls[j]? = some l) (hc : kindAt ls j = .start ∨ out ≠ none) :
    atPos log (posOf lines k) = [⟨info, richAt j l, out⟩] := by
  rw [logFor_get ls info hi h k hik _ hr]
  have : ¬ (kindAt ls j ≠ .start ∧ out = none) := by
    rintro ⟨a, b⟩
    rcases hc with hc | hc
    · exact a hc
    · exact hc b
  simp only [Option.filter, decide_eq_true hj, if_true, Option.bind_some, hitFor, hl, Option.getD_some]
  rw [if_neg this]
  rfl

theorem logFor_no {lines : List Str} {loc : Readings} (hlen : lines.length = loc.length) {i : Nat} {J : List Nat} {log : List (Nat × RawHit)}
    (hi : i ≤ lines.length)
    (h : LogFor ls info (lines.drop i) (loc.drop i) (posOf lines i) J log) (k : Nat) (hk : k < lines.length)
    (hno : i ≤ k → ∀ j out, loc[k]? = some (some (j, out)) → j ∈ J → kindAt ls j ≠ .start ∧ out = none) : atPos log (posOf lines k) = [] := by
  by_cases hik : i ≤ k
  · have hr : loc[k]? = some (loc[k]'(by omega)) := List.getElem?_eq_getElem _
    rw [logFor_get ls info hi h k hik _ hr]
    cases hc : loc[k]'(by omega) with
    | none => rfl
    | some x =>
      obtain ⟨j, out⟩ := x
      rw [hc] at hr
      by_cases hj : j ∈ J
      · have := hno hik j out hr hj
        simp only [Option.filter, decide_eq_true hj, if_true, Option.bind_some, hitFor]
        rw [if_pos this]
        rfl
      · simp [Option.filter, hj]
  · exact logFor_low ls info hi h k (by omega)

end

/-! ## The search -/

section
variable (mf : MatchFns) (ctx : LoadCtx) (id : List Str → GId) (all : List (List Str × List RLine))
  (lines : List Str) (hne : lines ≠ []) (hl : ∀ t ∈ lines, '\n' ∉ t) (env : Env) (reads : RReading) (hr : All2 (RichReadsIn mf env all) lines reads)

include hl hr hne

mutual
/-- the search of one group -/
theorem runRe_rtree (p : List Str) (T : RGroup) (hT : T.OK ctx) (G : Grp) (hb : RBuilt id p T G) (i : Nat) (hi : i ≤ lines.length)
    (hf : found (bare reads) p = some i) (hin : ∀ x ∈ T.listing p, x ∈ all) (hsub : ∀ x ∈ all, (p ++ [T.name]) <+: x.1 → x ∈ T.listing p) (r : RawDict) :
    ∃ log, runRe mf (dataText (join c!"\n" lines)) G (posOf lines i) none env r = .ok (env, logDict r log) ∧
      RLogOk id all lines reads (fun g => (p ++ [T.name]) <+: g) log := by
  match T, G with
  | .mk n ls pad cs tail, .mk info st nm en hd gs =>
    obtain ⟨hinfo, rfl, rfl, rfl, rfl, hbc⟩ := hb
    obtain ⟨hn, hls, hpad, htail, hcs⟩ := hT
    simp only [RGroup.name] at hsub ⊢
    have hq : (p ++ [n], ls) ∈ all := hin _ (by simp [RGroup.listing])
    have hlen := all2_len hr
    have hun : ∀ ls', (p ++ [n], ls') ∈ all → ls' = ls := by
      intro ls' h
      have := hsub _ h (List.prefix_refl _)
      simp only [RGroup.listing, List.mem_cons, Prod.mk.injEq, true_and] at this
      rcases this with h | h
      · exact h
      · obtain ⟨m, _, hm⟩ := rlistings_prefix _ _ _ h
        have := hm.length_le
        simp at this
    obtain ⟨loc, hloc, ht1, ht2⟩ := local_reads mf env all (p ++ [n]) ls hq hun lines reads hr
    have hlenl := all2_len hloc
    have hld : ∀ i, ∀ t ∈ lines.drop i, '\n' ∉ t := fun i t ht => hl t (List.mem_of_mem_drop ht)
    have hsl : ∀ i, i ≤ lines.length → slice (dataText (join c!"\n" lines)) (posOf lines i) none = nlCut (lines.drop i) [] := by
      intro i hi
      rw [nlCut_nil]; exact slice_nl lines hne i hi
    have hkind : ∀ (k j : Nat) out, loc[k]? = some (some (j, out)) → ∃ l, ls[j]? = some l := fun k j out h => read_num mf env ls hloc k j out h
    have hstart : ∀ k, KindRead ls loc .start k ↔ ∃ out, reads[k]? = some (some (p ++ [n], true, out)) := by
      intro k
      constructor
      · rintro ⟨j, out, h1, h2⟩
        have := ht1 k j out h1
        rw [decide_eq_true h2] at this
        exact ⟨out, this⟩
      · rintro ⟨out, h⟩
        obtain ⟨j, h1, h2⟩ := ht2 k true out h
        exact ⟨j, out, h1, h2.1 rfl⟩
    have hstartd : ∀ i k, IsOf (loc.drop i) (sel .start 0 ls) k ↔ ∃ out, reads[i + k]? = some (some (p ++ [n], true, out)) := by
      intro i k
      rw [isOf_sel mf env ls (all2_drop hloc i) .start k, ← hstart (i + k)]
      simp only [KindRead, List.getElem?_drop]
    obtain ⟨log1, si, e1, L1, h2, h3, h4, h5⟩ := runStarts_rich mf env ctx ls info hls.lines (dataText (join c!"\n" lines)) (lines.drop i) (hld i)
      (loc.drop i) (all2_drop hloc i) (posOf lines i) (hsl i hi) (sel .start 0 ls) (sel_pick ls .start) ⟨none, 0⟩ r
    have e1' : runStarts mf (dataText (join c!"\n" lines)) info (posOf lines i) none (selRx .start 0 ls) ⟨none, 0⟩ env r = .ok (si, env, logDict r log1) := e1
    obtain ⟨s0, se⟩ := si
    cases hfq : found (bare reads) (p ++ [n]) with
    | none =>
      have hfs : firstStart (bare reads) i (p ++ [n]) = none := by rw [found_snoc, hf] at hfq; exact hfq
      have hno := firstStart_none _ _ _ hfs
      have hno' : ∀ (k : Nat) out, i ≤ k → reads[k]? ≠ some (some (p ++ [n], true, out)) := by
        intro k out hik h
        exact hno k [] hik ((bare_start reads k _ _).2 ⟨rfl, out, h⟩)
      have hs0 : s0 = none := h2.2 ⟨rfl, fun k h => by
        obtain ⟨out, h⟩ := (hstartd i k).1 h
        exact hno' (i + k) out (by omega) h⟩
      subst hs0
      have hlog : log1 = [] := by
        cases hc : log1 with
        | nil => rfl
        | cons e log' =>
          obtain ⟨k, j, out, _, _, h3, h4⟩ := logFor_mem ls info (by simp [hlenl]) L1 e (by rw [hc]; simp)
          obtain ⟨out', h⟩ := (hstartd i k).1 ⟨j, out, h3, h4⟩
          exact absurd h (hno' (i + k) out' (by omega))
      subst hlog
      refine ⟨[], ?_, ?_, ?_, ?_⟩
      · have hdef : ∀ (cs : List RGroup) (gs : List Grp), RBuiltAll id (p ++ [n]) cs gs →
            runDefaultChildren mf (dataText (join c!"\n" lines)) false gs (posOf lines i) none env r = .ok (env, r) := by
          intro cs
          induction cs with
          | nil => intro gs h; rw [RBuiltAll] at h; subst h; rfl
          | cons c cs ih =>
            rintro gs ⟨g, gs', rfl, h1, h2⟩
            have hd : g.hasDefault = false := by
              cases c with
              | mk n' ls' pad' cs' tail' =>
                cases g with
                | mk => exact h1.2.2.2.2.1
            simp only [runDefaultChildren, hd, Bool.or_false, Bool.false_eq_true, if_false, pure_ok, ok_bind, ih gs' h2]
        have hne0 : (selRx .start 0 ls).isEmpty = false := by
          obtain ⟨l, tl, e⟩ := List.exists_cons_of_ne_nil hls.ne
          have hk : kindOf 0 l = .start := by
            have := hls.noEnd 0 l (by rw [e]; rfl)
            unfold kindOf at this ⊢
            split
            · rfl
            · rename_i h; rw [if_neg h] at this
              split
              · rename_i h'; rw [if_pos h'] at this; exact absurd rfl this
              · rfl
          have : (0, l) ∈ sel .start 0 ls := (mem_sel .start ls 0 0 l).2 ⟨by omega, by rw [e]; rfl, hk⟩
          cases hs : sel .start 0 ls with
          | nil => rw [hs] at this; cases this
          | cons => simp [selRx, hs]
        simp only [runRe, e1', ok_bind, Bool.false_eq_true, if_false, hne0, hdef cs gs hbc, logDict, List.foldl_nil]
      · simp
      · intro k g st out hk hbelow hc
        exfalso
        obtain ⟨⟨m, hm, hmk⟩, _⟩ := hc
        by_cases hgq : g = p ++ [n]
        · subst hgq
          cases st with
          | true =>
            simp only [numOf, if_true, List.dropLast_concat, hf, Option.some.injEq] at hm
            subst hm
            exact hno' k out hmk hk
          | false => simp [numOf, hfq] at hm
        · have hp' : (p ++ [n]) <+: (if numOf st = 0 then g.dropLast else g) := by
            split
            · obtain ⟨r, rfl⟩ := hbelow
              have : r ≠ [] := by rintro rfl; simp at hgq
              rw [List.dropLast_append_of_ne_nil this]
              exact List.prefix_append _ _
            · exact hbelow
          rw [found_none_prefix _ _ _ hfq hp'] at hm
          cases hm
      · intro k _ _; rfl
    | some s =>
      have hfs : firstStart (bare reads) i (p ++ [n]) = some s := by rw [found_snoc, hf] at hfq; exact hfq
      obtain ⟨his, ⟨v0, hs0⟩, hmin⟩ := firstStart_some _ _ _ _ hfs
      obtain ⟨_, out0, hs0⟩ := (bare_start reads s _ _).1 hs0
      have hslt : s < lines.length := by have := (List.getElem?_eq_some_iff.1 hs0).1; omega
      have hmin' : ∀ (k : Nat) out, i ≤ k → reads[k]? = some (some (p ++ [n], true, out)) → s ≤ k := fun k out hik h =>
        hmin k [] hik ((bare_start reads k _ _).2 ⟨rfl, out, h⟩)
      have hps : posOf lines s = posOf lines i + posOf (lines.drop i) (s - i) := by
        rw [← posOf_add lines i (s - i) (by omega)]; congr 1; omega
      -- where the search goes on
      have hsn : s0 ≠ none := by
        intro e
        exact (h2.1 e).2 (s - i) ((hstartd i (s - i)).2 ⟨out0, by rw [show i + (s - i) = s by omega]; exact hs0⟩)
      obtain ⟨s1, rfl⟩ := Option.ne_none_iff_exists'.1 hsn
      have hs1 : s1 = posOf (lines.drop i) (s - i) := by
        obtain ⟨ha, _, hc⟩ := h3 s1 rfl
        obtain ⟨k, hk, e⟩ : ∃ k, IsOf (loc.drop i) (sel .start 0 ls) k ∧ s1 = posOf (lines.drop i) k := by
          rcases ha with ha | ha
          · cases ha
          · exact ha
        have h6 := hc (s - i) ((hstartd i (s - i)).2 ⟨out0, by rw [show i + (s - i) = s by omega]; exact hs0⟩)
        obtain ⟨out, hk⟩ := (hstartd i k).1 hk
        have h7 := hmin' (i + k) out (by omega) hk
        have hklt : i + k < lines.length := by have := (List.getElem?_eq_some_iff.1 hk).1; omega
        have h8 := posOf_le (lines.drop i) (s - i) k (by simp; omega) (by omega)
        omega
      subst hs1
      obtain ⟨log3, e3, L3⟩ := runNormals_rich mf env ctx ls info hls.lines (dataText (join c!"\n" lines)) (lines.drop s) (hld s) [] (by simp)
        (loc.drop s) (all2_drop hloc s) (posOf lines s) none (hsl s (by omega)) (sel .normal 0 ls) (sel_pick ls .normal) (logDict r log1)
      have e3' : runNormals mf (dataText (join c!"\n" lines)) info (posOf lines s) none (selRx .normal 0 ls) env (logDict r log1) =
        .ok (env, logDict (logDict r log1) log3) := e3
      obtain ⟨clog, hcrun, hclog⟩ := runChildren_rtree (p ++ [n]) cs hcs gs hbc s (by omega) hfq
        (fun x hx => hin x (by simp [RGroup.listing, hx]))
        (by
          intro x hx n' _ hpre
          have := hsub x hx ((List.prefix_append _ _).trans hpre)
          simp only [RGroup.listing, List.mem_cons] at this
          rcases this with rfl | h
          · have := hpre.length_le
            simp at this
          · exact h) (logDict (logDict r log1) log3)
      have hrun : runRe mf (dataText (join c!"\n" lines)) (.mk info (selRx .start 0 ls) (selRx .normal 0 ls) [] false gs) (posOf lines i) none env r =
          .ok (env, logDict r (log1 ++ (log3 ++ clog))) := by
        simp only [runRe, e1', ok_bind, runEnds, pure_ok, ← hps, e3', hcrun]
        rw [logDict_append, logDict_append]
      have hnum : ∀ (kd : LineKind) j l, ls[j]? = some l → (j ∈ (sel kd 0 ls).map (·.1) ↔ kindAt ls j = kd) := by
        intro kd j l hj
        rw [mem_selNums, kindAt_get ls j l hj]
        constructor
        · rintro ⟨l', a, b⟩; rw [hj] at a; cases a; exact b
        · intro h; exact ⟨l, hj, h⟩
      have hne3 : ∀ j l, ls[j]? = some l → kindAt ls j ≠ .start → kindAt ls j = .normal := by
        intro j l hj h
        have := hls.noEnd j l hj
        rw [← kindAt_get ls j l hj] at this
        cases hk : kindAt ls j with
        | start => exact absurd hk h
        | stop => exact absurd hk this
        | normal => rfl
      refine ⟨_, hrun, ?_, ?_, ?_⟩
      · -- positions
        intro x hx
        simp only [List.mem_append] at hx
        rcases hx with hx | hx | hx
        · obtain ⟨k, h1, _, h2⟩ := logFor_pos ls info hi L1 x hx
          exact ⟨k, h1, h2⟩
        · obtain ⟨k, h1, _, h2⟩ := logFor_pos ls info (by omega) L3 x hx
          exact ⟨k, h1, h2⟩
        · exact hclog.pos x hx
      · -- what counts
        intro k g st out hk hbelow hc
        have hklt : k < lines.length := by have := (List.getElem?_eq_some_iff.1 hk).1; omega
        rw [atPos_append, atPos_append]
        by_cases hgq : g = p ++ [n]
        · subst hgq
          have hch : atPos clog (posOf lines k) = [] := by
            apply hclog.no k hklt
            rintro g' j' v' hk' ⟨⟨m', _, hm'⟩, _⟩
            rw [hk] at hk'
            simp only [Option.some.injEq, Prod.mk.injEq] at hk'
            rw [← hk'.1] at hm'
            have := hm'.length_le
            simp at this
          rw [hch, List.append_nil]
          obtain ⟨⟨m', hm', hmk⟩, hrej⟩ := hc
          obtain ⟨j, hj, hst⟩ := ht2 k st out hk
          obtain ⟨l, hjl⟩ := hkind k j out hj
          have hact := (richRx_action ctx l (hls.lines l (List.mem_of_getElem? hjl)) j).1
          cases st with
          | true =>
            have hkd := hst.1 rfl
            simp only [numOf, if_true, List.dropLast_concat, hf, Option.some.injEq] at hm'
            subst hm'
            refine ⟨⟨info, richAt j l, out⟩, ?_, ⟨ls, hq, hinfo⟩, ?_, richAt_isLine j l, rfl⟩
            · rw [logFor_yes ls info hi L1 k hmk j out hj ((hnum .start j l hjl).2 hkd) l hjl (Or.inl hkd),
                logFor_no ls info hlenl (by omega) L3 k hklt]
              · rfl
              · intro _ j' out' hj' hm
                rw [hj] at hj'
                simp only [Option.some.injEq, Prod.mk.injEq] at hj'
                obtain ⟨rfl, rfl⟩ := hj'
                rw [hnum .normal j l hjl, hkd] at hm
                cases hm
            · show (richAt j l).action = _
              rw [hact, ← kindAt_get ls j l hjl, hkd]; rfl
          | false =>
            have hkd : kindAt ls j = .normal := hne3 j l hjl (fun h => by have := hst.2 h; cases this)
            simp only [numOf, Bool.false_eq_true, if_false, Nat.one_ne_zero, hfq, Option.some.injEq] at hm'
            subst hm'
            have hout : out ≠ none := by
              rcases hrej with h | h
              · cases h
              · exact h
            refine ⟨⟨info, richAt j l, out⟩, ?_, ⟨ls, hq, hinfo⟩, ?_, richAt_isLine j l, rfl⟩
            · rw [logFor_yes ls info (by omega) L3 k hmk j out hj ((hnum .normal j l hjl).2 hkd) l hjl (Or.inr hout),
                logFor_no ls info hlenl hi L1 k hklt]
              · rfl
              · intro _ j' out' hj' hm
                rw [hj] at hj'
                simp only [Option.some.injEq, Prod.mk.injEq] at hj'
                obtain ⟨rfl, rfl⟩ := hj'
                rw [hnum .start j l hjl, hkd] at hm
                cases hm
            · show (richAt j l).action = _
              rw [hact, ← kindAt_get ls j l hjl, hkd]; rfl
        · -- a group inside
          have hnone : ∀ j out', loc[k]? ≠ some (some (j, out')) := by
            intro j out' h
            have := ht1 k j out' h
            rw [hk] at this
            simp only [Option.some.injEq, Prod.mk.injEq] at this
            exact hgq this.1
          rw [logFor_no ls info hlenl hi L1 k hklt (fun _ j' out' h _ => absurd h (hnone j' out')),
            logFor_no ls info hlenl (by omega) L3 k hklt (fun _ j' out' h _ => absurd h (hnone j' out')), List.nil_append, List.nil_append]
          refine hclog.yes k g st out hk ?_ hc
          obtain ⟨r, hrk, hread⟩ := all2_get hr k _ (List.getElem?_eq_getElem hklt)
          rw [hk] at hrk
          cases hrk
          obtain ⟨ls', j', l', vals, h1, _⟩ := hread
          have := hsub _ h1 hbelow
          simp only [RGroup.listing, List.mem_cons, Prod.mk.injEq] at this
          rcases this with ⟨h, _⟩ | h
          · exact absurd h hgq
          · exact rlistings_prefix _ _ _ h
      · -- what does not count
        intro k hklt hno
        rw [atPos_append, atPos_append]
        have h1 : atPos log1 (posOf lines k) = [] := by
          apply logFor_no ls info hlenl hi L1 k hklt
          intro hik j out hj hm
          exfalso
          obtain ⟨l, hjl⟩ := hkind k j out hj
          have hkd := (hnum .start j l hjl).1 hm
          have hk := ht1 k j out hj
          rw [decide_eq_true hkd] at hk
          exact hno _ _ _ hk ⟨List.prefix_refl _, ⟨i, by simpa [numOf] using hf, hik⟩, Or.inl rfl⟩
        have h2 : atPos log3 (posOf lines k) = [] := by
          apply logFor_no ls info hlenl (by omega) L3 k hklt
          intro hik j out hj hm
          obtain ⟨l, hjl⟩ := hkind k j out hj
          have hkd := (hnum .normal j l hjl).1 hm
          have hns : kindAt ls j ≠ .start := by rw [hkd]; simp
          refine ⟨hns, ?_⟩
          have hk := ht1 k j out hj
          rw [decide_eq_false hns] at hk
          cases out with
          | none => rfl
          | some d => exact absurd ⟨List.prefix_refl _, ⟨s, by simpa [numOf] using hfq, hik⟩, Or.inr (by simp)⟩ (hno _ _ _ hk)
        have h3 : atPos clog (posOf lines k) = [] := by
          apply hclog.no k hklt
          rintro g st out hk ⟨⟨m', _, hm'⟩, hc⟩
          exact hno g st out hk ⟨(List.prefix_append _ _).trans hm', hc⟩
        rw [h1, h2, h3]; rfl
/-- the search of child groups -/
theorem runChildren_rtree (p : List Str) (cs : List RGroup) (hcs : richGroupsOK ctx cs) (gs : List Grp) (hb : RBuiltAll id p cs gs) (i : Nat) (hi : i ≤ lines.length)
    (hf : found (bare reads) p = some i) (hin : ∀ x ∈ richListings p cs, x ∈ all)
    (hsub : ∀ x ∈ all, ∀ n ∈ cs.map RGroup.name, (p ++ [n]) <+: x.1 → x ∈ richListings p cs) (r : RawDict) :
    ∃ log, runChildren mf (dataText (join c!"\n" lines)) gs (posOf lines i) none env r = .ok (env, logDict r log) ∧
      RLogOk id all lines reads (fun g => ∃ n ∈ cs.map RGroup.name, (p ++ [n]) <+: g) log := by
  match cs with
  | [] =>
    rw [RBuiltAll] at hb
    subst hb
    exact ⟨[], rfl, by simp, by rintro k g j v _ ⟨n, h, _⟩; simp at h, fun k _ _ => rfl⟩
  | c :: cs =>
    obtain ⟨g, gs', rfl, hb1, hb2⟩ := hb
    obtain ⟨h1, h2, h3⟩ := hcs
    have hlen := all2_len hr
    obtain ⟨log1, hr1, hl1⟩ := runRe_rtree p c h1 g hb1 i hi hf (fun x hx => hin x (by simp [richListings, hx])) (by
      intro x hx hpre
      have := hsub x hx c.name (by simp) hpre
      simp only [richListings, List.mem_append] at this
      rcases this with h | h
      · exact h
      · obtain ⟨m, hm, hmp⟩ := rlistings_prefix _ _ _ h
        rw [← snoc_prefix_inj p _ _ _ hpre hmp] at hm
        exact absurd hm h2) r
    obtain ⟨log2, hr2, hl2⟩ := runChildren_rtree p cs h3 gs' hb2 i hi hf (fun x hx => hin x (by simp [richListings, hx])) (by
      intro x hx n hn hpre
      have := hsub x hx n (by simp only [List.map_cons, List.mem_cons]; exact Or.inr hn) hpre
      simp only [richListings, List.mem_append] at this
      rcases this with h | h
      · have := snoc_prefix_inj p _ _ _ hpre (rlisting_prefix _ _ _ h)
        subst this
        exact absurd hn h2
      · exact h) (logDict r log1)
    refine ⟨log1 ++ log2, ?_, ?_, ?_, ?_⟩
    · simp only [runChildren, hr1, ok_bind, hr2]
      rw [logDict_append]
    · intro x hx
      rcases List.mem_append.1 hx with hx | hx
      · exact hl1.pos x hx
      · exact hl2.pos x hx
    · rintro k g j v hk ⟨n, hn, hpre⟩ hc
      have hklt : k < lines.length := by have := (List.getElem?_eq_some_iff.1 hk).1; omega
      rw [atPos_append]
      by_cases hnc : n = c.name
      · subst hnc
        have : atPos log2 (posOf lines k) = [] := by
          apply hl2.no k hklt
          rintro g' j' v' hk' ⟨⟨m, hm, hmp⟩, _⟩
          rw [hk] at hk'
          simp only [Option.some.injEq, Prod.mk.injEq] at hk'
          rw [← hk'.1] at hmp
          rw [← snoc_prefix_inj p _ _ _ hpre hmp] at hm
          exact h2 hm
        rw [this, List.append_nil]
        exact hl1.yes k g j v hk hpre hc
      · have hn' : n ∈ cs.map RGroup.name := by
          rcases List.mem_cons.1 hn with h | h
          · exact absurd h hnc
          · exact h
        have : atPos log1 (posOf lines k) = [] := by
          apply hl1.no k hklt
          rintro g' j' v' hk' ⟨hmp, _⟩
          rw [hk] at hk'
          simp only [Option.some.injEq, Prod.mk.injEq] at hk'
          rw [← hk'.1] at hmp
          exact hnc (snoc_prefix_inj p _ _ _ hpre hmp)
        rw [this, List.nil_append]
        exact hl2.yes k g j v hk ⟨n, hn', hpre⟩ hc
    · intro k hklt hno
      rw [atPos_append, hl1.no k hklt (fun g j v hk h => hno g j v hk ⟨⟨c.name, by simp, h.1⟩, h.2⟩),
        hl2.no k hklt (fun g j v hk h => by
          obtain ⟨⟨n, hn, hp⟩, hc⟩ := h
          exact hno g j v hk ⟨⟨n, by simp only [List.map_cons, List.mem_cons]; exact Or.inr hn, hp⟩, hc⟩)]
      rfl
end
end

end TTP
