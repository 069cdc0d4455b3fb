import Verif.Proofs.Tree2
/-! # Lemmas: the matches of nested groups as events -/

namespace TTP
open Py Spec Re

/-- what was read, as an event -/
def mkEv (g : List Str) (j : Nat) (v : List (Str × Str)) : NEv := if j = 0 then .start g (recOf v) else .line g (recOf v)

/-- does it count -/
def countsB (reads : Reading) (g : List Str) (j k : Nat) : Bool :=
  match found reads (if j = 0 then g.dropLast else g) with
  | some m => decide (m ≤ k)
  | none => false

theorem countsB_iff (reads : Reading) (g : List Str) (j k : Nat) : countsB reads g j k = true ↔ Counts reads g j k := by
  unfold countsB Counts
  cases found reads (if j = 0 then g.dropLast else g) with
  | none => simp
  | some m => simp

/-- the event of a line of the text -/
def evAt (reads : Reading) (k : Nat) : Option NEv :=
  match reads[k]? with
  | some (some (g, j, v)) => if countsB reads g j k then some (mkEv g j v) else none
  | _ => none

theorem found_start (reads : Reading) (g : List Str) (hg : g ≠ []) (m : Nat) (h : found reads g = some m) :
    ∃ v, reads[m]? = some (some (g, 0, v)) := by
  have := found_snoc reads g.dropLast (g.getLast hg)
  rw [List.dropLast_concat_getLast hg, h] at this
  cases hp : found reads g.dropLast with
  | none => rw [hp] at this; cases this
  | some i =>
    rw [hp] at this
    exact (firstStart_some _ _ _ _ this.symm).2.1

theorem found_le (reads : Reading) (g : List Str) (hg : g ≠ []) (k : Nat) (v) (hk : reads[k]? = some (some (g, 0, v))) (i : Nat)
    (hi : found reads g.dropLast = some i) (hik : i ≤ k) : ∃ m, found reads g = some m ∧ m ≤ k := by
  have := found_snoc reads g.dropLast (g.getLast hg)
  rw [List.dropLast_concat_getLast hg, hi] at this
  cases hf : firstStart reads i g with
  | none => exact absurd hk (firstStart_none _ _ _ hf k v hik)
  | some m => exact ⟨m, by rw [this]; exact hf, (firstStart_some _ _ _ _ hf).2.2 k v hik hk⟩

theorem found_zero (reads : Reading) : found reads [] = some 0 := rfl

/-- what counts, step by step -/
theorem inForce_suffix (reads : Reading) (hne : ∀ (k : Nat) g j v, reads[k]? = some (some (g, j, v)) → g ≠ []) (rs pre : Reading) (h : reads = pre ++ rs)
    (S : List (List Str)) (hS : ∀ g, g ≠ [] → (g ∈ S ↔ ∃ m, found reads g = some m ∧ m < pre.length)) :
    inForce S rs = (List.range' pre.length rs.length).filterMap (evAt reads) := by
  induction rs generalizing pre S with
  | nil => rfl
  | cons r rs ih =>
    have hk : reads[pre.length]? = some r := by rw [h]; simp
    have hS' : ∀ g, g ≠ [] → (found reads g ≠ some pre.length) → (g ∈ S ↔ ∃ m, found reads g = some m ∧ m < (pre ++ [r]).length) := by
      intro g hg hnot
      rw [hS g hg]
      constructor
      · rintro ⟨m, h1, h2⟩; exact ⟨m, h1, by simp; omega⟩
      · rintro ⟨m, h1, h2⟩
        refine ⟨m, h1, ?_⟩
        simp only [List.length_append, List.length_singleton] at h2
        have : m ≠ pre.length := by rintro rfl; exact hnot h1
        omega
    have step : ∀ S', (∀ g, g ≠ [] → (g ∈ S' ↔ ∃ m, found reads g = some m ∧ m < (pre ++ [r]).length)) →
        inForce S' rs = (List.range' (pre.length + 1) rs.length).filterMap (evAt reads) := by
      intro S' hS'
      have := ih (pre ++ [r]) (by simp [h]) S' hS'
      simpa using this
    rw [show (r :: rs).length = rs.length + 1 from rfl, List.range'_succ, List.filterMap_cons]
    match r with
    | none =>
      have he : evAt reads pre.length = none := by simp [evAt, hk]
      rw [he]
      apply step
      intro g hg
      apply hS' g hg
      intro hf
      obtain ⟨v, hv⟩ := found_start _ _ hg _ hf
      rw [hk] at hv
      simp at hv
    | some (g, j, v) =>
      have hg := hne _ _ _ _ hk
      cases j with
      | zero =>
        have hcond : (g.dropLast = [] ∨ g.dropLast ∈ S) ↔ Counts reads g 0 pre.length := by
          unfold Counts
          simp only [if_true]
          by_cases hd : g.dropLast = []
          · simp only [hd, true_or, true_iff, found_zero]
            exact ⟨0, rfl, Nat.zero_le _⟩
          · simp only [hd, false_or]
            rw [hS _ hd]
            constructor
            · rintro ⟨m, h1, h2⟩; exact ⟨m, h1, by omega⟩
            · rintro ⟨m, h1, h2⟩
              refine ⟨m, h1, ?_⟩
              rcases Nat.lt_or_eq_of_le h2 with h2 | rfl
              · exact h2
              · obtain ⟨v', hv'⟩ := found_start _ _ hd _ h1
                rw [hk] at hv'
                simp only [Option.some.injEq, Prod.mk.injEq] at hv'
                have := congrArg List.length hv'.1
                have hpos := List.length_pos_iff.2 hg
                rw [List.length_dropLast] at this
                omega
        simp only [inForce]
        by_cases hc : Counts reads g 0 pre.length
        · rw [if_pos (hcond.2 hc)]
          have he : evAt reads pre.length = some (.start g (recOf v)) := by
            simp [evAt, hk, (countsB_iff reads g 0 _).2 hc, mkEv]
          rw [he]
          simp only
          rw [step (g :: S)]
          intro g' hg'
          simp only [List.mem_cons]
          by_cases he' : g' = g
          · subst he'
            simp only [true_or, true_iff]
            obtain ⟨i, hi, hik⟩ := hc
            simp only [if_true] at hi
            obtain ⟨m, h1, h2⟩ := found_le reads g' hg _ v hk i hi hik
            exact ⟨m, h1, by simp; omega⟩
          · simp only [he', false_or]
            apply hS' g' hg'
            intro hf
            obtain ⟨v', hv'⟩ := found_start _ _ hg' _ hf
            rw [hk] at hv'
            simp only [Option.some.injEq, Prod.mk.injEq] at hv'
            exact he' hv'.1.symm
        · rw [if_neg (fun h => hc (hcond.1 h))]
          have he : evAt reads pre.length = none := by
            have : countsB reads g 0 pre.length = false := by
              cases hb : countsB reads g 0 pre.length with
              | false => rfl
              | true => exact absurd ((countsB_iff _ _ _ _).1 hb) hc
            simp [evAt, hk, this]
          rw [he]
          apply step
          intro g' hg'
          apply hS' g' hg'
          intro hf
          obtain ⟨v', hv'⟩ := found_start _ _ hg' _ hf
          rw [hk] at hv'
          simp only [Option.some.injEq, Prod.mk.injEq] at hv'
          obtain ⟨rfl, _⟩ := hv'
          apply hc
          have := found_snoc reads g.dropLast (g.getLast hg)
          rw [List.dropLast_concat_getLast hg, hf] at this
          cases hp : found reads g.dropLast with
          | none => rw [hp] at this; cases this
          | some i =>
            rw [hp] at this
            exact ⟨i, by simpa using hp, (firstStart_some _ _ _ _ this.symm).1⟩
      | succ j =>
        have hnot : ∀ g', g' ≠ [] → found reads g' ≠ some pre.length := by
          intro g' hg' hf
          obtain ⟨v', hv'⟩ := found_start _ _ hg' _ hf
          rw [hk] at hv'
          simp at hv'
        have hcond : g ∈ S ↔ Counts reads g (j + 1) pre.length := by
          unfold Counts
          simp only [Nat.add_eq_zero_iff, Nat.one_ne_zero, and_false, if_false]
          rw [hS g hg]
          constructor
          · rintro ⟨m, h1, h2⟩; exact ⟨m, h1, by omega⟩
          · rintro ⟨m, h1, h2⟩
            refine ⟨m, h1, ?_⟩
            have : m ≠ pre.length := by rintro rfl; exact hnot g hg h1
            omega
        simp only [inForce]
        by_cases hc : Counts reads g (j + 1) pre.length
        · rw [if_pos (hcond.2 hc)]
          have he : evAt reads pre.length = some (.line g (recOf v)) := by
            simp [evAt, hk, (countsB_iff reads g (j + 1) _).2 hc, mkEv]
          rw [he]
          simp only
          rw [step S (fun g' hg' => hS' g' hg' (hnot g' hg'))]
        · rw [if_neg (fun h => hc (hcond.1 h))]
          have he : evAt reads pre.length = none := by
            have : countsB reads g (j + 1) pre.length = false := by
              cases hb : countsB reads g (j + 1) pre.length with
              | false => rfl
              | true => exact absurd ((countsB_iff _ _ _ _).1 hb) hc
            simp [evAt, hk, this]
          rw [he]
          exact step S (fun g' hg' => hS' g' hg' (hnot g' hg'))

theorem inForce_evAt (reads : Reading) (hne : ∀ (k : Nat) g j v, reads[k]? = some (some (g, j, v)) → g ≠ []) :
    inForce [] reads = (List.range reads.length).filterMap (evAt reads) := by
  have := inForce_suffix reads hne reads [] rfl [] (by
    intro g _
    simp)
  rw [List.range_eq_range']
  simpa using this

/-! ## The sorted matches -/

theorem filterMap_all2 {α β γ : Type} (R : β → γ → Prop) (f : α → Option β) (g : α → Option γ) (l : List α)
    (h : ∀ a ∈ l, (f a = none ∧ g a = none) ∨ ∃ b c, f a = some b ∧ g a = some c ∧ R b c) : All2 R (l.filterMap f) (l.filterMap g) := by
  induction l with
  | nil => exact .nil
  | cons a l ih =>
    have ih' := ih (fun x hx => h x (by simp [hx]))
    rcases h a (by simp) with ⟨h1, h2⟩ | ⟨b, c, h1, h2, h3⟩
    · simpa [h1, h2] using ih'
    · simp only [List.filterMap_cons, h1, h2]
      exact .cons h3 ih'

/-- the match is an event of the text -/
def HitOfRead (id : List Str → GId) (reads : Reading) (h : RawHit) (e : NEv) : Prop :=
  ∃ (k : Nat) (g : List Str) (j : Nat) (v : List (Str × Str)), reads[k]? = some (some (g, j, v)) ∧ IsHit id g j v h ∧ e = mkEv g j v

theorem sorted_log (id : List Str → GId) (lines : List Str) (reads : Reading) (hlen : lines.length = reads.length) (below : List Str → Prop)
    (log : List (Nat × RawHit)) (hlog : LogOk id lines reads below log) (hb : ∀ (k : Nat) g j v, reads[k]? = some (some (g, j, v)) → below g ∧ g ≠ []) :
    ∃ hits, (sortRaw (logDict [] log)).map Prod.snd = hits.map ([·]) ∧ All2 (HitOfRead id reads) hits (inForce [] reads) := by
  have hat : ∀ k, ∃ o : Option RawHit, k < lines.length → atPos log (posOf lines k) = o.toList ∧
      ((o = none ∧ evAt reads k = none) ∨ ∃ h e, o = some h ∧ evAt reads k = some e ∧ HitOfRead id reads h e) := by
    intro k
    by_cases hk : k < lines.length
    · cases hr : reads[k]? with
      | none => rw [List.getElem?_eq_none_iff] at hr; omega
      | some r =>
        cases r with
        | none =>
          refine ⟨none, fun _ => ⟨?_, Or.inl ⟨rfl, by simp [evAt, hr]⟩⟩⟩
          exact hlog.no k hk (fun g j v h => by rw [hr] at h; simp at h)
        | some r =>
          obtain ⟨g, j, v⟩ := r
          cases hc : countsB reads g j k with
          | false =>
            refine ⟨none, fun _ => ⟨?_, Or.inl ⟨rfl, by simp [evAt, hr, hc]⟩⟩⟩
            refine hlog.no k hk (fun g' j' v' h hcc => ?_)
            rw [hr] at h
            simp only [Option.some.injEq, Prod.mk.injEq] at h
            obtain ⟨rfl, rfl, rfl⟩ := h
            rw [(countsB_iff _ _ _ _).2 hcc.2] at hc
            cases hc
          | true =>
            obtain ⟨h, h1, h2⟩ := hlog.yes k g j v hr (hb k g j v hr).1 ((countsB_iff _ _ _ _).1 hc)
            exact ⟨some h, fun _ => ⟨h1, Or.inr ⟨h, mkEv g j v, rfl, by simp [evAt, hr, hc], k, g, j, v, hr, h2, rfl⟩⟩⟩
    · exact ⟨none, fun h => absurd h hk⟩
  obtain ⟨hitAt, hhit⟩ := Classical.axiomOfChoice hat
  have hsort : sortRaw (logDict [] log) = (List.range lines.length).filterMap (fun k => (hitAt k).map (fun h => (posOf lines k, [h]))) := by
    have hg := good_logDict [] log good_nil
    apply sorted_ext _ _ (sortRaw_strict _ hg.1)
    · rw [List.pairwise_filterMap]
      have hp : (List.range lines.length).Pairwise (fun a b => a < b ∧ b < lines.length) := by
        have h1 := List.pairwise_lt_range (n := lines.length)
        have h2 : (List.range lines.length).Pairwise (fun _ b => b < lines.length) := by
          rw [List.pairwise_iff_forall_sublist]
          intro a b hab
          exact List.mem_range.1 (hab.subset (by simp))
        exact h1.and h2
      refine hp.imp ?_
      rintro a b ⟨hab, hb⟩ x hx y hy
      simp only [Option.map_eq_some_iff] at hx hy
      obtain ⟨_, _, rfl⟩ := hx
      obtain ⟨_, _, rfl⟩ := hy
      exact posOf_lt lines a b hab (by omega)
    · rintro ⟨p, hs⟩
      rw [(sortRaw_perm _).mem_iff, mem_logDict, List.mem_filterMap]
      constructor
      · rintro ⟨rfl, hne⟩
        obtain ⟨x, hx⟩ := List.exists_mem_of_ne_nil _ hne
        simp only [atPos, List.mem_map, List.mem_filter, beq_iff_eq] at hx
        obtain ⟨y, ⟨hy, rfl⟩, _⟩ := hx
        obtain ⟨k, hk, he⟩ := hlog.pos y hy
        refine ⟨k, List.mem_range.2 hk, ?_⟩
        rw [he] at hne ⊢
        have := (hhit k hk).1
        rw [this] at hne ⊢
        cases ho : hitAt k with
        | none => rw [ho] at hne; exact absurd rfl hne
        | some h => rfl
      · rintro ⟨k, hk, he⟩
        simp only [Option.map_eq_some_iff, Prod.mk.injEq] at he
        obtain ⟨h, ho, rfl, rfl⟩ := he
        have := (hhit k (List.mem_range.1 hk)).1
        rw [ho] at this
        rw [this]
        exact ⟨rfl, by simp⟩
  refine ⟨(List.range lines.length).filterMap hitAt, ?_, ?_⟩
  · rw [hsort, List.map_filterMap, List.map_filterMap]
    congr 1
    funext k
    cases hitAt k <;> rfl
  · rw [inForce_evAt reads (fun k g j v h => (hb k g j v h).2), ← hlen]
    apply filterMap_all2
    intro k hk
    rcases (hhit k (List.mem_range.1 hk)).2 with h | ⟨h, e, h1, h2, h3⟩
    · exact Or.inl h
    · exact Or.inr ⟨h, e, h1, h2, h3⟩

end TTP
