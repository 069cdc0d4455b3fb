import Verif.Proofs.RichTree2
import Verif.Proofs.Tree3
/-! # Lemmas: the matches of nested groups with rich lines as events -/

namespace TTP
open Py Spec Re

/-- what was read, as an event -/
def rmkEv (g : List Str) (st : Bool) (out : Option (Dict Key Val)) : Option NEv :=
  if st then some (startEv g out) else out.map (.line g)

/-- the event of a line of the text -/
def revAt (reads : RReading) (k : Nat) : Option NEv :=
  match reads[k]? with
  | some (some (g, st, out)) => if countsB (bare reads) g (numOf st) k then rmkEv g st out else none
  | _ => none

/-- what counts, step by step -/
theorem richForce_suffix (reads : RReading) (hne : ∀ (k : Nat) g st out, reads[k]? = some (some (g, st, out)) → g ≠ []) (rs pre : RReading)
    (h : reads = pre ++ rs) (S : List (List Str)) (hS : ∀ g, g ≠ [] → (g ∈ S ↔ ∃ m, found (bare reads) g = some m ∧ m < pre.length)) :
    richForce S rs = (List.range' pre.length rs.length).filterMap (revAt reads) := by
  induction rs generalizing pre S with
  | nil => rfl
  | cons r rs ih =>
    have hk : reads[pre.length]? = some r := by rw [h]; simp
    have hstart : ∀ g, g ≠ [] → found (bare reads) g = some pre.length → ∃ out, r = some (g, true, out) := by
      intro g hg hf
      obtain ⟨v, hv⟩ := found_start _ _ hg _ hf
      obtain ⟨_, out, hv⟩ := (bare_start _ _ _ _).1 hv
      rw [hk] at hv
      exact ⟨out, Option.some.inj hv⟩
    have hS' : ∀ g, g ≠ [] → (found (bare reads) g ≠ some pre.length) → (g ∈ S ↔ ∃ m, found (bare reads) g = some m ∧ m < (pre ++ [r]).length) := by
      intro g hg hnot
      rw [hS g hg]
      constructor
      · rintro ⟨m, h1, h2⟩; exact ⟨m, h1, by simp; omega⟩
      · rintro ⟨m, h1, h2⟩
        refine ⟨m, h1, ?_⟩
        simp only [List.length_append, List.length_singleton] at h2
        have : m ≠ pre.length := by rintro rfl; exact hnot h1
        omega
    have step : ∀ S', (∀ g, g ≠ [] → (g ∈ S' ↔ ∃ m, found (bare reads) g = some m ∧ m < (pre ++ [r]).length)) →
        richForce S' rs = (List.range' (pre.length + 1) rs.length).filterMap (revAt reads) := by
      intro S' hS'
      have := ih (pre ++ [r]) (by simp [h]) S' hS'
      simpa using this
    rw [show (r :: rs).length = rs.length + 1 from rfl, List.range'_succ, List.filterMap_cons]
    match r with
    | none =>
      have he : revAt reads pre.length = none := by simp [revAt, hk]
      rw [he]
      apply step
      intro g hg
      apply hS' g hg
      intro hf
      obtain ⟨out, e⟩ := hstart g hg hf
      cases e
    | some (g, true, out) =>
      have hg := hne _ _ _ _ hk
      have hkb : (bare reads)[pre.length]? = some (some (g, 0, [])) := (bare_start _ _ _ _).2 ⟨rfl, out, hk⟩
      have hcond : (g.dropLast = [] ∨ g.dropLast ∈ S) ↔ Counts (bare reads) g 0 pre.length := by
        unfold Counts
        simp only [if_true]
        by_cases hd : g.dropLast = []
        · simp only [hd, true_or, true_iff, found_zero]
          exact ⟨0, rfl, Nat.zero_le _⟩
        · simp only [hd, false_or]
          rw [hS _ hd]
          constructor
          · rintro ⟨m, h1, h2⟩; exact ⟨m, h1, by omega⟩
          · rintro ⟨m, h1, h2⟩
            refine ⟨m, h1, ?_⟩
            rcases Nat.lt_or_eq_of_le h2 with h2 | rfl
            · exact h2
            · obtain ⟨out', e⟩ := hstart _ hd h1
              simp only [Option.some.injEq, Prod.mk.injEq] at e
              have := congrArg List.length e.1
              have hpos := List.length_pos_iff.2 hg
              rw [List.length_dropLast] at this
              omega
      simp only [richForce]
      by_cases hc : Counts (bare reads) g 0 pre.length
      · rw [if_pos (hcond.2 hc)]
        have he : revAt reads pre.length = some (startEv g out) := by
          simp [revAt, hk, numOf, (countsB_iff (bare reads) g 0 _).2 hc, rmkEv]
        rw [he]
        simp only
        rw [step (g :: S)]
        intro g' hg'
        simp only [List.mem_cons]
        by_cases he' : g' = g
        · subst he'
          simp only [true_or, true_iff]
          obtain ⟨i, hi, hik⟩ := hc
          simp only [if_true] at hi
          obtain ⟨m, h1, h2⟩ := found_le (bare reads) g' hg _ [] hkb i hi hik
          exact ⟨m, h1, by simp; omega⟩
        · simp only [he', false_or]
          apply hS' g' hg'
          intro hf
          obtain ⟨out', e⟩ := hstart _ hg' hf
          simp only [Option.some.injEq, Prod.mk.injEq] at e
          exact he' e.1.symm
      · rw [if_neg (fun h => hc (hcond.1 h))]
        have he : revAt reads pre.length = none := by
          have : countsB (bare reads) g 0 pre.length = false := by
            cases hb : countsB (bare reads) g 0 pre.length with
            | false => rfl
            | true => exact absurd ((countsB_iff _ _ _ _).1 hb) hc
          simp [revAt, hk, numOf, this]
        rw [he]
        apply step
        intro g' hg'
        apply hS' g' hg'
        intro hf
        obtain ⟨out', e⟩ := hstart _ hg' hf
        simp only [Option.some.injEq, Prod.mk.injEq] at e
        obtain ⟨rfl, _⟩ := e
        apply hc
        have := found_snoc (bare reads) g.dropLast (g.getLast hg)
        rw [List.dropLast_concat_getLast hg, hf] at this
        cases hp : found (bare reads) g.dropLast with
        | none => rw [hp] at this; cases this
        | some i =>
          rw [hp] at this
          exact ⟨i, by simpa using hp, (firstStart_some _ _ _ _ this.symm).1⟩
    | some (g, false, out) =>
      have hg := hne _ _ _ _ hk
      have hnot : ∀ g', g' ≠ [] → found (bare reads) g' ≠ some pre.length := by
        intro g' hg' hf
        obtain ⟨out', e⟩ := hstart _ hg' hf
        simp at e
      have hcond : g ∈ S ↔ Counts (bare reads) g 1 pre.length := by
        unfold Counts
        simp only [Nat.one_ne_zero, if_false]
        rw [hS g hg]
        constructor
        · rintro ⟨m, h1, h2⟩; exact ⟨m, h1, by omega⟩
        · rintro ⟨m, h1, h2⟩
          refine ⟨m, h1, ?_⟩
          have : m ≠ pre.length := by rintro rfl; exact hnot g hg h1
          omega
      simp only [richForce]
      by_cases hc : Counts (bare reads) g 1 pre.length
      · rw [if_pos (hcond.2 hc)]
        have he : revAt reads pre.length = out.map (.line g) := by
          simp [revAt, hk, numOf, (countsB_iff (bare reads) g 1 _).2 hc, rmkEv]
        rw [he]
        have hst := step S (fun g' hg' => hS' g' hg' (hnot g' hg'))
        cases out with
        | none => simpa [lineEv] using hst
        | some d => simpa [lineEv] using hst
      · rw [if_neg (fun h => hc (hcond.1 h))]
        have he : revAt reads pre.length = none := by
          have : countsB (bare reads) g 1 pre.length = false := by
            cases hb : countsB (bare reads) g 1 pre.length with
            | false => rfl
            | true => exact absurd ((countsB_iff _ _ _ _).1 hb) hc
          simp [revAt, hk, numOf, this]
        rw [he]
        exact step S (fun g' hg' => hS' g' hg' (hnot g' hg'))

theorem richForce_evAt (reads : RReading) (hne : ∀ (k : Nat) g st out, reads[k]? = some (some (g, st, out)) → g ≠ []) :
    richForce [] reads = (List.range reads.length).filterMap (revAt reads) := by
  have := richForce_suffix reads hne reads [] rfl [] (by
    intro g _
    simp)
  rw [List.range_eq_range']
  simpa using this

/-! ## The sorted matches -/

/-- the match is an event of the text -/
def RHitOfRead (id : List Str → GId) (all : List (List Str × List RLine)) (reads : RReading) (h : RawHit) (e : NEv) : Prop :=
  ∃ (k : Nat) (g : List Str) (st : Bool) (out : Option (Dict Key Val)), reads[k]? = some (some (g, st, out)) ∧ RHit id all g st out h ∧
    rmkEv g st out = some e

theorem rsorted_log (id : List Str → GId) (all : List (List Str × List RLine)) (lines : List Str) (reads : RReading) (hlen : lines.length = reads.length)
    (below : List Str → Prop) (log : List (Nat × RawHit)) (hlog : RLogOk id all lines reads below log)
    (hb : ∀ (k : Nat) g st out, reads[k]? = some (some (g, st, out)) → below g ∧ g ≠ []) :
    ∃ hits, (sortRaw (logDict [] log)).map Prod.snd = hits.map ([·]) ∧ All2 (RHitOfRead id all reads) hits (richForce [] reads) := by
  have hat : ∀ k, ∃ o : Option RawHit, k < lines.length → atPos log (posOf lines k) = o.toList ∧
      ((o = none ∧ revAt reads k = none) ∨ ∃ h e, o = some h ∧ revAt reads k = some e ∧ RHitOfRead id all reads h e) := by
    intro k
    by_cases hk : k < lines.length
    · cases hr : reads[k]? with
      | none => rw [List.getElem?_eq_none_iff] at hr; omega
      | some r =>
        cases r with
        | none =>
          refine ⟨none, fun _ => ⟨?_, Or.inl ⟨rfl, by simp [revAt, hr]⟩⟩⟩
          exact hlog.no k hk (fun g j v h => by rw [hr] at h; simp at h)
        | some r =>
          obtain ⟨g, st, out⟩ := r
          by_cases hc : RCounts reads g st out k
          · obtain ⟨h, h1, h2⟩ := hlog.yes k g st out hr (hb k g st out hr).1 hc
            have he : ∃ e, rmkEv g st out = some e := by
              unfold rmkEv
              cases st with
              | true => exact ⟨_, rfl⟩
              | false =>
                rcases hc.2 with h | h
                · cases h
                · obtain ⟨d, rfl⟩ := Option.ne_none_iff_exists'.1 h
                  exact ⟨_, rfl⟩
            obtain ⟨e, he⟩ := he
            refine ⟨some h, fun _ => ⟨h1, Or.inr ⟨h, e, rfl, ?_, k, g, st, out, hr, h2, he⟩⟩⟩
            simp [revAt, hr, (countsB_iff _ _ _ _).2 hc.1, he]
          · refine ⟨none, fun _ => ⟨?_, Or.inl ⟨rfl, ?_⟩⟩⟩
            · refine hlog.no k hk (fun g' st' out' h hcc => ?_)
              rw [hr] at h
              simp only [Option.some.injEq, Prod.mk.injEq] at h
              obtain ⟨rfl, rfl, rfl⟩ := h
              exact hc hcc.2
            · simp only [revAt, hr]
              cases hcb : countsB (bare reads) g (numOf st) k with
              | false => simp
              | true =>
                have h1 := (countsB_iff _ _ _ _).1 hcb
                simp only [if_true]
                cases st with
                | true => exact absurd ⟨h1, Or.inl rfl⟩ hc
                | false =>
                  cases out with
                  | none => rfl
                  | some d => exact absurd ⟨h1, Or.inr (by simp)⟩ hc
    · exact ⟨none, fun h => absurd h hk⟩
  obtain ⟨hitAt, hhit⟩ := Classical.axiomOfChoice hat
  have hsort : sortRaw (logDict [] log) = (List.range lines.length).filterMap (fun k => (hitAt k).map (fun h => (posOf lines k, [h]))) := by
    have hg := good_logDict [] log good_nil
    apply sorted_ext _ _ (sortRaw_strict _ hg.1)
    · rw [List.pairwise_filterMap]
      have hp : (List.range lines.length).Pairwise (fun a b => a < b ∧ b < lines.length) := by
        have h1 := List.pairwise_lt_range (n := lines.length)
        have h2 : (List.range lines.length).Pairwise (fun _ b => b < lines.length) := by
          rw [List.pairwise_iff_forall_sublist]
          intro a b hab
          exact List.mem_range.1 (hab.subset (by simp))
        exact h1.and h2
      refine hp.imp ?_
      rintro a b ⟨hab, hb⟩ x hx y hy
      simp only [Option.map_eq_some_iff] at hx hy
      obtain ⟨_, _, rfl⟩ := hx
      obtain ⟨_, _, rfl⟩ := hy
      exact posOf_lt lines a b hab (by omega)
    · rintro ⟨p, hs⟩
      rw [(sortRaw_perm _).mem_iff, mem_logDict, List.mem_filterMap]
      constructor
      · rintro ⟨rfl, hne⟩
        obtain ⟨x, hx⟩ := List.exists_mem_of_ne_nil _ hne
        simp only [atPos, List.mem_map, List.mem_filter, beq_iff_eq] at hx
        obtain ⟨y, ⟨hy, rfl⟩, _⟩ := hx
        obtain ⟨k, hk, he⟩ := hlog.pos y hy
        refine ⟨k, List.mem_range.2 hk, ?_⟩
        rw [he] at hne ⊢
        have := (hhit k hk).1
        rw [this] at hne ⊢
        cases ho : hitAt k with
        | none => rw [ho] at hne; exact absurd rfl hne
        | some h => rfl
      · rintro ⟨k, hk, he⟩
        simp only [Option.map_eq_some_iff, Prod.mk.injEq] at he
        obtain ⟨h, ho, rfl, rfl⟩ := he
        have := (hhit k (List.mem_range.1 hk)).1
        rw [ho] at this
        rw [this]
        exact ⟨rfl, by simp⟩
  refine ⟨(List.range lines.length).filterMap hitAt, ?_, ?_⟩
  · rw [hsort, List.map_filterMap, List.map_filterMap]
    congr 1
    funext k
    cases hitAt k <;> rfl
  · rw [richForce_evAt reads (fun k g st out h => (hb k g st out h).2), ← hlen]
    apply filterMap_all2
    intro k hk
    rcases (hhit k (List.mem_range.1 hk)).2 with h | ⟨h, e, h1, h2, h3⟩
    · exact Or.inl h
    · exact Or.inr ⟨h, e, h1, h2, h3⟩

end TTP
