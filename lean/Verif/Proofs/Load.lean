import Verif.Spec.Load
import Verif.Proofs.Save
/-!
# Proofs about loading
-/

namespace TTP
open Py

variable {O : Type}

theorem globLoop_none (nm : O → Str) (n : Str) (before : List O) (outs : List O) (h : ∀ o ∈ outs, nm o ≠ n) :
    globLoop nm n before outs = (before ++ outs, [], none) := by
  match outs with
  | [] => simp [globLoop]
  | [o] => simp [globLoop, h o (by simp)]
  | o :: p :: rest =>
    have h0 := h o (by simp)
    rw [globLoop, if_neg h0, globLoop_none nm n (before ++ [o]) (p :: rest) (fun q hq => h q (List.mem_cons_of_mem _ hq))]
    simp

theorem globLoop_eq (nm : O → Str) (n : Str) (before : List O) (outs : List O) (h : (outs.map nm).Nodup) :
    globLoop nm n before outs = (before ++ outs.filter (fun o => decide (nm o ≠ n)), outs.filter (fun o => decide (nm o = n)),
      named nm outs n) := by
  match outs with
  | [] => simp [globLoop, named]
  | [o] =>
    by_cases h0 : nm o = n <;> simp [globLoop, h0, named]
  | o :: p :: rest =>
    rw [List.map_cons, List.nodup_cons] at h
    by_cases h0 : nm o = n
    · have hn : ∀ q ∈ p :: rest, nm q ≠ n := by
        intro q hq e
        exact h.1 (by rw [h0, ← e]; exact List.mem_map_of_mem hq)
      rw [globLoop, if_pos h0, globLoop_none nm n _ rest (fun q hq => hn q (by simp [hq]))]
      have e1 : (p :: rest).filter (fun o => decide (nm o ≠ n)) = p :: rest := by
        rw [List.filter_eq_self]; intro q hq; simp [hn q hq]
      have e2 : (p :: rest).filter (fun o => decide (nm o = n)) = [] := by
        rw [List.filter_eq_nil_iff]; intro q hq; simp [hn q hq]
      have f1 : (o :: p :: rest).filter (fun o => decide (nm o ≠ n)) = p :: rest := by
        rw [← e1, List.filter_cons (x := o), if_neg (by simp [h0]), List.filter_filter]; simp
      have f2 : (o :: p :: rest).filter (fun o => decide (nm o = n)) = [o] := by
        rw [List.filter_cons (x := o), if_pos (by simp [h0]), e2]
      rw [f1, f2]
      simp [named, h0]
    · rw [globLoop, if_neg h0, globLoop_eq nm n (before ++ [o]) (p :: rest) h.2, List.filter_cons (x := o), if_pos (by simp [h0]),
        List.filter_cons (x := o), if_neg (by simp [h0])]
      simp [named, h0]

theorem named_iff (nm : O → Str) (all : List O) (h : (all.map nm).Nodup) (n : Str) (o : O) :
    named nm all n = some o ↔ o ∈ all ∧ nm o = n := by
  constructor
  · intro he
    exact ⟨List.mem_of_find?_eq_some he, by simpa using List.find?_some he⟩
  · rintro ⟨h1, h2⟩
    induction all with
    | nil => cases h1
    | cons a all ih =>
      rw [List.map_cons, List.nodup_cons] at h
      unfold named
      rw [List.find?_cons]
      rcases List.mem_cons.1 h1 with rfl | h1
      · simp [h2]
      · have : nm a ≠ n := by
          intro e
          exact h.1 (by rw [e, ← h2]; exact List.mem_map_of_mem h1)
        simp only [this, decide_false]
        exact ih h.2 h1

theorem named_perm (nm : O → Str) (a b : List O) (hp : a.Perm b) (h : (a.map nm).Nodup) (n : Str) : named nm a n = named nm b n := by
  have hb : (b.map nm).Nodup := (hp.map nm).nodup_iff.1 h
  cases e : named nm a n with
  | some o =>
    rw [named_iff nm a h] at e
    exact ((named_iff nm b hb n o).2 ⟨hp.subset e.1, e.2⟩).symm
  | none =>
    cases e2 : named nm b n with
    | none => rfl
    | some o =>
      rw [named_iff nm b hb] at e2
      rw [(named_iff nm a h n o).2 ⟨hp.symm.subset e2.1, e2.2⟩] at e
      cases e

theorem grpFind_eq (nm : O → Str) (n : Str) (g : List O) (h : (g.map nm).Nodup) : grpFind nm n g = named nm g n := by
  unfold grpFind
  have : (g.reverse.map nm).Nodup := ((List.reverse_perm g).map nm).nodup_iff.2 h
  exact named_perm nm g.reverse g (List.reverse_perm g) this n

theorem findSlot_eq (nm : O → Str) (n : Str) (outs gouts : List O) (h : ((outs ++ gouts).map nm).Nodup) :
    (findSlot nm n outs gouts).1 = outs.filter (fun o => decide (nm o ≠ n)) ∧
    ((findSlot nm n outs gouts).1 ++ (findSlot nm n outs gouts).2.1).Perm (outs ++ gouts) ∧
    (findSlot nm n outs gouts).2.2 = named nm (outs ++ gouts) n := by
  have h1 : (outs.map nm).Nodup := by rw [List.map_append, List.nodup_append] at h; exact h.1
  unfold findSlot
  simp only [globLoop_eq nm n [] outs h1, List.nil_append, true_and]
  have hp : (gouts ++ outs.filter (fun o => decide (nm o = n))).Perm (outs.filter (fun o => decide (nm o = n)) ++ gouts) :=
    List.perm_append_comm
  have hsplit : (outs.filter (fun o => decide (nm o ≠ n)) ++ outs.filter (fun o => decide (nm o = n))).Perm outs := by
    have := List.filter_append_perm (fun o => decide (nm o = n)) outs
    refine List.perm_append_comm.trans ?_
    simpa using this
  refine ⟨?_, ?_⟩
  · refine (List.Perm.append_left _ hp).trans ?_
    rw [← List.append_assoc]
    exact hsplit.append_right _
  · have hg : ((gouts ++ outs.filter (fun o => decide (nm o = n))).map nm).Nodup := by
      have hsub : (outs.filter (fun o => decide (nm o = n)) ++ gouts).Sublist (outs ++ gouts) :=
        (List.filter_sublist).append_right _
      exact ((hp.map nm).nodup_iff).2 ((hsub.map nm).nodup h)
    rw [grpFind_eq nm n _ hg]
    cases e : named nm outs n with
    | some o =>
      rw [named_iff nm outs h1] at e
      exact ((named_iff nm _ h n o).2 ⟨by simp [e.1], e.2⟩).symm
    | none =>
      simp only [Option.none_or]
      have hno : ∀ o ∈ outs, nm o ≠ n := by
        intro o ho e2
        rw [(named_iff nm outs h1 n o).2 ⟨ho, e2⟩] at e; cases e
      rw [named, named, List.find?_append, List.find?_append]
      have : outs.filter (fun o => decide (nm o = n)) = [] := by
        rw [List.filter_eq_nil_iff]; intro o ho; simp [hno o ho]
      rw [this]
      unfold named at e
      rw [e]
      simp

theorem lookedUp_perm (nm : O → Str) (a b : List O) (hp : a.Perm b) (h : (a.map nm).Nodup) (ns : List Str) :
    lookedUp nm a ns = lookedUp nm b ns ∧ leftSlots nm a ns = leftSlots nm b ns := by
  match ns with
  | [] => simp [lookedUp, leftSlots]
  | [n] => simp [lookedUp, leftSlots, named_perm nm a b hp h]
  | n :: m :: rest =>
    have h1 := lookedUp_perm nm a b hp h (m :: rest)
    have h2 := lookedUp_perm nm a b hp h rest
    rw [lookedUp, lookedUp, leftSlots, leftSlots, named_perm nm a b hp h]
    cases named nm b n with
    | some o => simp only [h1.1, h1.2, and_self]
    | none => simp only [h2.1, h2.2, and_self]

theorem slotsLoop_eq (nm : O → Str) (outs gouts : List O) (before : List (Slot O)) (ns : List Str)
    (h : ((outs ++ gouts).map nm).Nodup) :
    (slotsLoop nm outs gouts before ns).1 = outs.filter (fun o => decide (nm o ∉ lookedUp nm (outs ++ gouts) ns)) ∧
    ((slotsLoop nm outs gouts before ns).1 ++ (slotsLoop nm outs gouts before ns).2.1).Perm (outs ++ gouts) ∧
    (slotsLoop nm outs gouts before ns).2.2 = before ++ leftSlots nm (outs ++ gouts) ns := by
  match ns with
  | [] => simp [slotsLoop, lookedUp, leftSlots, List.filter_eq_self.2]
  | [n] =>
    obtain ⟨h1, h2, h3⟩ := findSlot_eq nm n outs gouts h
    simp only [slotsLoop, lookedUp, leftSlots]
    rw [h3]
    refine ⟨?_, h2, rfl⟩
    rw [h1]; simp
  | n :: m :: rest =>
    obtain ⟨h1, h2, h3⟩ := findSlot_eq nm n outs gouts h
    have hnd : (((findSlot nm n outs gouts).1 ++ (findSlot nm n outs gouts).2.1).map nm).Nodup := (h2.map nm).nodup_iff.2 h
    rw [slotsLoop, lookedUp, leftSlots]
    simp only [h3]
    cases hn : named nm (outs ++ gouts) n with
    | some o =>
      obtain ⟨a, b, c⟩ := slotsLoop_eq nm (findSlot nm n outs gouts).1 (findSlot nm n outs gouts).2.1 (before ++ [.obj o]) (m :: rest) hnd
      obtain ⟨l1, l2⟩ := lookedUp_perm nm _ _ h2 hnd (m :: rest)
      rw [l1] at a; rw [l2] at c
      refine ⟨?_, b.trans h2, by rw [c]; simp⟩
      dsimp only
      rw [a, h1, List.filter_filter]
      congr 1
      funext o
      by_cases e : nm o = n <;> simp [e]
    | none =>
      obtain ⟨a, b, c⟩ := slotsLoop_eq nm (findSlot nm n outs gouts).1 (findSlot nm n outs gouts).2.1 (before ++ [.name m]) rest hnd
      obtain ⟨l1, l2⟩ := lookedUp_perm nm _ _ h2 hnd rest
      rw [l1] at a; rw [l2] at c
      refine ⟨?_, b.trans h2, by rw [c]; simp⟩
      dsimp only
      rw [a, h1, List.filter_filter]
      congr 1
      funext o
      by_cases e : nm o = n <;> simp [e]

theorem updateGroups_eq (nm : O → Str) (outs gouts : List O) (gs : List (List Str)) (h : ((outs ++ gouts).map nm).Nodup) :
    (updateGroups nm outs gouts gs).1 = outs.filter (fun o => decide (nm o ∉ gs.flatMap (lookedUp nm (outs ++ gouts)))) ∧
    ((updateGroups nm outs gouts gs).1 ++ (updateGroups nm outs gouts gs).2.1).Perm (outs ++ gouts) ∧
    (updateGroups nm outs gouts gs).2.2 = gs.map (leftSlots nm (outs ++ gouts)) := by
  induction gs generalizing outs gouts with
  | nil => simp [updateGroups, List.filter_eq_self.2]
  | cons g gs ih =>
    obtain ⟨h1, h2, h3⟩ := slotsLoop_eq nm outs gouts [] g h
    have hnd : (((slotsLoop nm outs gouts [] g).1 ++ (slotsLoop nm outs gouts [] g).2.1).map nm).Nodup := (h2.map nm).nodup_iff.2 h
    obtain ⟨a, b, c⟩ := ih _ _ hnd
    have el : lookedUp nm ((slotsLoop nm outs gouts [] g).1 ++ (slotsLoop nm outs gouts [] g).2.1) = lookedUp nm (outs ++ gouts) := by
      funext ns; exact (lookedUp_perm nm _ _ h2 hnd ns).1
    have er : leftSlots nm ((slotsLoop nm outs gouts [] g).1 ++ (slotsLoop nm outs gouts [] g).2.1) = leftSlots nm (outs ++ gouts) := by
      funext ns; exact (lookedUp_perm nm _ _ h2 hnd ns).2
    rw [el] at a; rw [er] at c
    simp only [updateGroups]
    refine ⟨?_, b.trans h2, ?_⟩
    · rw [a, h1, List.filter_filter]
      congr 1
      funext o
      simp [Bool.and_comm]
    · rw [c, h3]; simp

theorem lookedUp_known (nm : O → Str) (all : List O) (ns : List Str) (h : ∀ n ∈ ns, n ∈ all.map nm) :
    lookedUp nm all ns = ns ∧ leftSlots nm all ns = ns.filterMap (fun n => (named nm all n).map Slot.obj) := by
  match ns with
  | [] => simp [lookedUp, leftSlots]
  | [n] =>
    simp only [lookedUp, leftSlots, List.filterMap_cons, List.filterMap_nil, true_and]
    cases named nm all n <;> simp
  | n :: m :: rest =>
    obtain ⟨h1, h2⟩ := lookedUp_known nm all (m :: rest) (fun q hq => h q (by simp [hq]))
    have : ∃ o, named nm all n = some o := by
      have hn := h n (by simp)
      obtain ⟨o, ho, e⟩ := List.mem_map.1 hn
      have : (named nm all n).isSome = true := by
        unfold named; rw [List.find?_isSome]; exact ⟨o, ho, by simp [e]⟩
      exact Option.isSome_iff_exists.1 this
    obtain ⟨o, ho⟩ := this
    rw [lookedUp, leftSlots, ho]
    simp only [h1, h2]
    refine ⟨trivial, ?_⟩
    conv => rhs; rw [List.filterMap_cons, ho]
    rfl

/-! ## Cache -/

theorem lazyImport_honest {T : Type} (tableOf : Nat → Str → T) (py : Nat) (ver : Str) (c : Cache T) (s : Saving)
    (h : c.Honest tableOf) :
    ∃ used c', lazyImport py ver (tableOf py ver) c s = .ok (tableOf py ver, used, c') ∧ c'.Honest tableOf ∧
      (used = true ↔ ∃ table, c = .dict py (some ver) table) ∧ (used = true → c' = c) := by
  have hs : ∀ (old new : Cache T), old.Honest tableOf → new.Honest tableOf → (saveCache old new s).Honest tableOf := by
    intro old new h1 h2
    cases s
    · exact h2
    · exact h1
    · trivial
  cases c with
  | absent => exact ⟨_, _, rfl, hs _ _ h (by intro v hv; cases hv), by simp, by simp⟩
  | unreadable => exact ⟨_, _, rfl, hs _ _ h (by intro v hv; cases hv), by simp, by simp⟩
  | other => exact absurd h (by simp [Cache.Honest])
  | dict p v table =>
    unfold lazyImport
    dsimp only
    by_cases hc : p = py ∧ v = some ver
    · rw [if_pos hc]
      obtain ⟨rfl, rfl⟩ := hc
      have := h ver rfl
      subst this
      exact ⟨_, _, rfl, h, by simp, by simp⟩
    · rw [if_neg hc]
      refine ⟨_, _, rfl, hs _ _ h (by intro v hv; cases hv; rfl), ?_, by simp⟩
      constructor
      · intro h; cases h
      · rintro ⟨t, ht⟩
        cases ht
        exact absurd ⟨rfl, rfl⟩ hc

end TTP
