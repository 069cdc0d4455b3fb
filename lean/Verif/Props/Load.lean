import Verif.Proofs.Load
/-!
# C45, C46: loading
-/

namespace Props
open Py TTP

/-! ## C45 -/

/-- C45. Exactly what loading does to the output names of the groups, if the outputs have different names: a known name becomes
its output, an unknown name is dropped - but then the name after it is not looked up and stays a name (`leftSlots`). The outputs
of the template that remain for all results are those not looked up by a group, and none is lost. -/
theorem C45_exact {O : Type} (nm : O → Str) (outs : List O) (gs : List (List Str)) (h : (outs.map nm).Nodup) :
    (updateGroups nm outs [] gs).2.2 = gs.map (leftSlots nm outs) ∧
    (updateGroups nm outs [] gs).1 = outs.filter (fun o => decide (nm o ∉ gs.flatMap (lookedUp nm outs))) ∧
    ((updateGroups nm outs [] gs).1 ++ (updateGroups nm outs [] gs).2.1).Perm outs := by
  obtain ⟨h1, h2, h3⟩ := updateGroups_eq nm outs [] gs (by simpa using h)
  simp only [List.append_nil] at h1 h2 h3
  exact ⟨h3, h1, h2⟩

/-- C45, in part: if every name is the name of an output, every group gets exactly the objects with its names, in order, and the
template keeps the other outputs. Missing: names after an unknown one, see `C45_unknown_leaves_name`. -/
theorem C45_known_resolved_partial {O : Type} (nm : O → Str) (outs : List O) (gs : List (List Str)) (h : (outs.map nm).Nodup)
    (hk : ∀ g ∈ gs, ∀ n ∈ g, n ∈ outs.map nm) :
    (∃ os : List (List O), (updateGroups nm outs [] gs).2.2 = os.map (·.map Slot.obj) ∧ os.map (·.map nm) = gs ∧
      ∀ l ∈ os, ∀ o ∈ l, o ∈ outs) ∧
    (updateGroups nm outs [] gs).1 = outs.filter (fun o => decide (nm o ∉ gs.flatten)) := by
  obtain ⟨h3, h1, _⟩ := C45_exact nm outs gs h
  refine ⟨⟨gs.map (fun g => g.filterMap (named nm outs)), ?_, ?_, ?_⟩, ?_⟩
  · rw [h3, List.map_map]
    apply List.map_congr_left
    intro g hg
    rw [(lookedUp_known nm outs g (hk g hg)).2]
    simp only [Function.comp, List.map_filterMap]
  · rw [List.map_map]
    conv => rhs; rw [← List.map_id gs]
    apply List.map_congr_left
    intro g hg
    have hk' := hk g hg
    clear hg
    simp only [Function.comp, id]
    induction g with
    | nil => rfl
    | cons n g ih =>
      have hn := hk' n (by simp)
      obtain ⟨o, ho, e⟩ := List.mem_map.1 hn
      have e1 := (named_iff nm outs h n o).2 ⟨ho, e⟩
      rw [List.filterMap_cons, e1]
      simp only [List.map_cons, e]
      rw [ih (fun m hm => hk' m (by simp [hm]))]
  · intro l hl o ho
    obtain ⟨g, _, rfl⟩ := List.mem_map.1 hl
    obtain ⟨n, _, e⟩ := List.mem_filterMap.1 ho
    exact ((named_iff nm outs h n o).1 e).1
  · rw [h1]
    congr 1
    funext o
    have : gs.flatMap (lookedUp nm outs) = gs.flatten := by
      rw [List.flatMap_def]
      congr 1
      conv => rhs; rw [← List.map_id gs]
      apply List.map_congr_left
      intro g hg
      exact (lookedUp_known nm outs g (hk g hg)).1
    rw [this]

/-- the hypotheses are met: two outputs, the second used by two groups -/
example : updateGroups id [c!"a", c!"b", c!"c"] [] [[c!"b"], [], [c!"c", c!"b"]] =
    ([c!"a"], [c!"b", c!"c"], [[.obj c!"b"], [], [.obj c!"c", .obj c!"b"]]) := by decide +kernel

/-- C45 is false: after an unknown name the next name stays unresolved, whether there is an output with that name or not. -/
theorem C45_unknown_leaves_name {O : Type} (nm : O → Str) (outs : List O) (h : (outs.map nm).Nodup) (u m : Str) (rest : List Str)
    (hu : u ∉ outs.map nm) :
    ∃ l, (updateGroups nm outs [] [u :: m :: rest]).2.2 = [.name m :: l] := by
  obtain ⟨h3, _, _⟩ := C45_exact nm outs [u :: m :: rest] h
  rw [h3]
  have : named nm outs u = none := by
    cases e : named nm outs u with
    | none => rfl
    | some o =>
      rw [named_iff nm outs h] at e
      exact absurd (List.mem_map.2 ⟨o, e.1, e.2⟩) hu
  simp only [List.map_cons, List.map_nil, leftSlots, this]
  exact ⟨_, rfl⟩

/-! ## C46 -/

/-- C46, in part: whatever the cache file was - absent, unreadable, of any version - and whatever versions are started one
after the other, with saving the cache working or failing in any way, every start gets the table of its own version.
`Honest` excludes cache files with a wrong table for a version and other pickled objects, see `C46_other_object_fails`. -/
theorem C46_every_start_own_table_partial {T : Type} (tableOf : Nat → Str → T) (starts : List Start) (c : Cache T)
    (h : c.Honest tableOf) :
    ∃ useds c', lazyStarts tableOf starts c = .ok ((starts.map (fun s => tableOf s.py s.ver)).zip useds, c') ∧
      useds.length = starts.length ∧ c'.Honest tableOf := by
  induction starts generalizing c with
  | nil => exact ⟨[], c, rfl, rfl, h⟩
  | cons s ss ih =>
    obtain ⟨u, c1, e1, h1, _, _⟩ := lazyImport_honest tableOf s.py s.ver c s.saving h
    obtain ⟨us, c2, e2, h2, h3⟩ := ih c1 h1
    refine ⟨u :: us, c2, ?_, by simp [h2], h3⟩
    unfold lazyStarts
    rw [e1, ok_bind]
    dsimp only
    rw [e2, ok_bind]
    rfl

/-- C46. The cache is used exactly if it is a dictionary of this Python and TTP version, and then it stays as it is. -/
theorem C46_used_iff {T : Type} (tableOf : Nat → Str → T) (py : Nat) (ver : Str) (c : Cache T) (s : Saving) (h : c.Honest tableOf) :
    ∃ used c', lazyImport py ver (tableOf py ver) c s = .ok (tableOf py ver, used, c') ∧
      (used = true ↔ ∃ table, c = .dict py (some ver) table) ∧ (used = true → c' = c) := by
  obtain ⟨u, c', h1, _, h2, h3⟩ := lazyImport_honest tableOf py ver c s h
  exact ⟨u, c', h1, h2, h3⟩

/-- C46. After two starts of the same version with saving working, the cache is used from the third start on, even if saving
fails later. -/
theorem C46_used_from_third_start {T : Type} (tableOf : Nat → Str → T) (py : Nat) (ver : Str) (c : Cache T) (h : c.Honest tableOf)
    (later : List Saving) :
    ∃ u1 u2, lazyStarts tableOf (⟨py, ver, .works⟩ :: ⟨py, ver, .works⟩ :: later.map (fun s => ⟨py, ver, s⟩)) c =
      .ok ((tableOf py ver, u1) :: (tableOf py ver, u2) :: later.map (fun _ => (tableOf py ver, true)),
        .dict py (some ver) (tableOf py ver)) := by
  have rest : ∀ later : List Saving, lazyStarts tableOf (later.map (fun s => (⟨py, ver, s⟩ : Start))) (.dict py (some ver) (tableOf py ver)) =
      .ok (later.map (fun _ => (tableOf py ver, true)), .dict py (some ver) (tableOf py ver)) := by
    intro later
    induction later with
    | nil => rfl
    | cons s l ih =>
      rw [List.map_cons, lazyStarts]
      have : lazyImport py ver (tableOf py ver) (.dict py (some ver) (tableOf py ver)) s =
          .ok (tableOf py ver, true, .dict py (some ver) (tableOf py ver)) := by simp [lazyImport, pure_ok]
      dsimp only
      rw [this, ok_bind]
      dsimp only
      rw [ih, ok_bind]
      rfl
  have two : ∀ p v t, (v = none ∨ v = some ver ∧ p = py ∧ t = tableOf py ver ∨ ¬ (p = py ∧ v = some ver)) →
      ∃ u, lazyStarts tableOf (⟨py, ver, .works⟩ :: later.map (fun s => (⟨py, ver, s⟩ : Start))) (.dict p v t) =
        .ok ((tableOf py ver, u) :: later.map (fun _ => (tableOf py ver, true)), .dict py (some ver) (tableOf py ver)) := by
    intro p v t hv
    by_cases hc : p = py ∧ v = some ver
    · have ht : t = tableOf py ver := by
        rcases hv with hv | ⟨_, _, hv⟩ | hv
        · rw [hv] at hc; cases hc.2
        · exact hv
        · exact absurd hc hv
      obtain ⟨rfl, rfl⟩ := hc
      subst ht
      exact ⟨true, rest (.works :: later)⟩
    · refine ⟨false, ?_⟩
      rw [lazyStarts]
      have : lazyImport py ver (tableOf py ver) (.dict p v t) .works =
          .ok (tableOf py ver, false, .dict py (some ver) (tableOf py ver)) := by simp [lazyImport, hc, pure_ok, saveCache]
      dsimp only
      rw [this, ok_bind]
      dsimp only
      rw [rest, ok_bind]
      rfl
  cases c with
  | absent =>
    obtain ⟨u, hu⟩ := two py none (tableOf py ver) (Or.inl rfl)
    refine ⟨false, u, ?_⟩
    rw [lazyStarts]
    simp only [lazyImport, pure_ok, ok_bind, saveCache]
    rw [hu, ok_bind]
  | unreadable =>
    obtain ⟨u, hu⟩ := two py none (tableOf py ver) (Or.inl rfl)
    refine ⟨false, u, ?_⟩
    rw [lazyStarts]
    simp only [lazyImport, pure_ok, ok_bind, saveCache]
    rw [hu, ok_bind]
  | other => exact absurd h (by simp [Cache.Honest])
  | dict p v t =>
    by_cases hc : p = py ∧ v = some ver
    · obtain ⟨rfl, rfl⟩ := hc
      have := h ver rfl
      subst this
      exact ⟨true, true, rest (.works :: .works :: later)⟩
    · refine ⟨false, true, ?_⟩
      have := rest (.works :: later)
      rw [lazyStarts]
      have e : lazyImport py ver (tableOf py ver) (.dict p v t) .works =
          .ok (tableOf py ver, false, .dict py (some ver) (tableOf py ver)) := by simp [lazyImport, hc, pure_ok, saveCache]
      dsimp only
      rw [e, ok_bind]
      dsimp only
      rw [List.map_cons] at this
      rw [this, ok_bind]
      rfl

/-- a first start without a cache file, a second, an upgrade, and back; the last two with a file that cannot be written -/
example : lazyStarts (fun p v => (p, v)) [⟨3, c!"0.9", .works⟩, ⟨3, c!"0.9", .works⟩, ⟨3, c!"0.9", .works⟩, ⟨3, c!"1.0", .cannotOpen⟩,
      ⟨3, c!"0.9", .cannotOpen⟩] .absent =
    .ok ([((3, c!"0.9"), false), ((3, c!"0.9"), false), ((3, c!"0.9"), true), ((3, c!"1.0"), false), ((3, c!"0.9"), true)],
      .dict 3 (some c!"0.9") (3, c!"0.9")) := by rfl

/-- C46 is false for a file with some other pickled object (such as a dictionary without `python_major_version`): every start
raises, however often it is tried. -/
theorem C46_other_object_fails {T : Type} (tableOf : Nat → Str → T) (s : Start) (ss : List Start) :
    lazyStarts tableOf (s :: ss) .other = .error .keyError := rfl

end Props
