import Verif.Spec.Object
import Verif.Proofs.EnvInv
/-!
# Proofs about the parser object
-/

namespace TTP
open Py Spec

/-! ### data of inputs -/

theorem loadData_eq (old new : List Datum) : loadData old new = old ++ (new.removeAll old).eraseDups := by
  induction new generalizing old with
  | nil => simp [loadData, List.removeAll]
  | cons d ds ih =>
    unfold loadData
    rw [List.foldl_cons]
    by_cases h : d ∈ old
    · rw [if_pos h]
      have := ih old
      unfold loadData at this
      rw [this]
      simp [List.removeAll, h]
    · rw [if_neg h]
      have := ih (old ++ [d])
      unfold loadData at this
      rw [this]
      have e : (d :: ds).removeAll old = d :: ds.removeAll old := by simp [List.removeAll, h]
      rw [e, List.eraseDups_cons]
      simp only [List.append_assoc, List.cons_append, List.nil_append, List.removeAll, List.filter_filter]
      congr 3
      congr 1
      funext x
      simp [Bool.and_comm, not_or]
      by_cases hx : x = d <;> by_cases hy : x ∈ old <;> simp [hx, hy]

theorem removeAll_nil' (l : List Datum) : l.removeAll [] = l := by
  simp [List.removeAll]

theorem loadData_nil (new : List Datum) : loadData [] new = new.eraseDups := by
  rw [loadData_eq, removeAll_nil']; rfl

theorem loadData_append (old a b : List Datum) : loadData (loadData old a) b = loadData old (a ++ b) := by
  unfold loadData
  rw [List.foldl_append]

theorem mem_loadData (old new : List Datum) (x : Datum) : x ∈ loadData old new ↔ x ∈ old ∨ x ∈ new := by
  rw [loadData_eq]
  simp [List.removeAll]
  by_cases h : x ∈ old <;> simp [h]

theorem loadData_sub (old new : List Datum) (h : ∀ x ∈ new, x ∈ old) : loadData old new = old := by
  induction new with
  | nil => rfl
  | cons d ds ih =>
    unfold loadData
    rw [List.foldl_cons, if_pos (h d (by simp))]
    exact ih (fun x hx => h x (by simp [hx]))

theorem loadData_comp (old acc new : List Datum) : loadData old (loadData acc new) = loadData (loadData old acc) new := by
  induction new generalizing acc with
  | nil => rfl
  | cons d ds ih =>
    by_cases h : d ∈ acc
    · have e1 : loadData acc (d :: ds) = loadData acc ds := by
        unfold loadData; rw [List.foldl_cons, if_pos h]
      have e2 : loadData (loadData old acc) (d :: ds) = loadData (loadData old acc) ds := by
        have : d ∈ loadData old acc := (mem_loadData _ _ _).2 (Or.inr h)
        generalize loadData old acc = q at this
        unfold loadData; rw [List.foldl_cons, if_pos this]
      rw [e1, e2, ih]
    · have e1 : loadData acc (d :: ds) = loadData (acc ++ [d]) ds := by
        unfold loadData; rw [List.foldl_cons, if_neg h]
      rw [e1, ih, ← loadData_append old acc [d], loadData_append]
      rfl

/-- loading distinct items of a list is loading the list -/
theorem loadData_dups (old new : List Datum) : loadData old (loadData [] new) = loadData old new := by
  rw [loadData_comp]; rfl

theorem eraseDups_nodup (l : List Datum) : l.eraseDups.Nodup := by
  induction h : l.length using Nat.strongRecOn generalizing l with
  | _ n ih =>
    cases l with
    | nil => simp
    | cons a as =>
      rw [List.eraseDups_cons, List.nodup_cons]
      refine ⟨?_, ih _ ?_ _ rfl⟩
      · rw [List.mem_eraseDups]; simp
      · subst h; simp only [List.length_cons]
        have := List.length_filter_le (fun b => !b == a) as
        omega

/-! ### one call -/

theorem selected_iff (tn : Str) (t : Tpl) : selected tn t = (decide (tn = t.name) || decide (tn = c!"_all_")) := by
  unfold selected
  congr 1
  · by_cases h : t.name = tn
    · simp [h]
    · have h' : tn ≠ t.name := fun e => h e.symm
      simp [h, h']
  · by_cases h : tn = c!"_all_"
    · simp [h]
    · simp [h]

theorem updateInput_name (E : Engine) (t : Tpl) (ds : List Datum) (n : Str) (gs : List Str) :
    (updateInput E t ds n gs).name = t.name := by
  unfold updateInput
  dsimp only
  split <;> rfl

theorem updateInput_groups (E : Engine) (t : Tpl) (ds : List Datum) (n : Str) (gs : List Str) :
    (updateInput E t ds n gs).groups = t.groups := by
  unfold updateInput
  dsimp only
  split <;> rfl

theorem updateInput_dataOf (E : Engine) (t : Tpl) (ds : List Datum) (n m : Str) (gs : List Str) :
    (updateInput E t ds n gs).dataOf m =
      if n = m then some (loadData ((t.dataOf m).getD []) ds) else t.dataOf m := by
  unfold updateInput Tpl.dataOf
  dsimp only
  split
  · rename_i old ho
    simp only [Dict.get?_set]
    by_cases e : n = m
    · subst e; simp [ho, loadData_dups]
    · simp [e]
  · rename_i ho
    simp only [Dict.get?_set]
    by_cases e : n = m
    · subst e; simp [ho]
    · simp [e]

theorem updateInput_groupsFor (E : Engine) (t : Tpl) (ds : List Datum) (n m : Str) (gs : List Str) :
    (updateInput E t ds n gs).groupsFor m =
      if n = m then some (match t.groupsFor m with
        | some old => E.setOrder (old ++ inputGroups t.groups n gs)
        | none => inputGroups t.groups n gs) else t.groupsFor m := by
  unfold updateInput Tpl.groupsFor
  dsimp only
  split
  · rename_i old ho
    simp only [Dict.get?_set]
    by_cases e : n = m
    · subst e; simp [ho]
    · simp [e]
  · rename_i ho
    simp only [Dict.get?_set]
    by_cases e : n = m
    · subst e; simp [ho]
    · simp [e]

theorem addInput_at (c : AddCall) (o : TTPObj) (i : Nat) (t : Tpl) (h : o.templates[i]? = some t) :
    (addInput c.E o c.data c.input c.tpl c.groups).templates[i]? =
      some (if loadFiles c.E.world c.data ≠ [] ∧ (c.tpl = t.name ∨ c.tpl = c!"_all_") then
        updateInput c.E t (loadFiles c.E.world c.data) c.input (orAll c.groups) else t) := by
  unfold addInput
  dsimp only
  by_cases he : loadFiles c.E.world c.data = []
  · rw [if_pos he]; simp [he, h]
  · rw [if_neg he]
    simp only [List.getElem?_map, h, Option.map_some, selected_iff, he, ne_eq, not_false_eq_true, true_and,
      Bool.or_eq_true, decide_eq_true_eq]

theorem addInputs_at (calls : List AddCall) (o : TTPObj) (i : Nat) (t : Tpl) (n : Str) (h : o.templates[i]? = some t) :
    ∃ t', (addInputs o calls).templates[i]? = some t' ∧ t'.name = t.name ∧ t'.groups = t.groups ∧
      t'.dataOf n = (if t.dataOf n = none ∧ given t.name n calls = [] then none
        else some (loadData ((t.dataOf n).getD []) (given t.name n calls))) := by
  induction calls generalizing o t with
  | nil =>
    refine ⟨t, h, rfl, rfl, ?_⟩
    cases e : t.dataOf n with
    | none => simp [given]
    | some l => simp [given, loadData]
  | cons c cs ih =>
    have h1 := addInput_at c o i t h
    obtain ⟨t', h2, h3, h4, h5⟩ := ih _ _ h1
    refine ⟨t', h2, ?_, ?_, ?_⟩
    · rw [h3]; split
      · rw [updateInput_name]
      · rfl
    · rw [h4]; split
      · rw [updateInput_groups]
      · rfl
    · rw [h5]
      clear h5 h2 h3 h4 h1 ih
      generalize hq : (if loadFiles c.E.world c.data ≠ [] ∧ (c.tpl = t.name ∨ c.tpl = c!"_all_") then
        updateInput c.E t (loadFiles c.E.world c.data) c.input (orAll c.groups) else t) = q
      by_cases he : loadFiles c.E.world c.data = []
      · have e : given t.name n (c :: cs) = given t.name n cs := by
          unfold given
          rw [List.filter_cons]
          split
          · simp [he]
          · rfl
        rw [if_neg (by simp [he])] at hq; subst hq; rw [e]
      · by_cases hs : c.tpl = t.name ∨ c.tpl = c!"_all_"
        · rw [if_pos ⟨he, hs⟩] at hq; subst hq; rw [updateInput_name, updateInput_dataOf]
          by_cases hn : c.input = n
          · have e : given t.name n (c :: cs) = loadFiles c.E.world c.data ++ given t.name n cs := by
              unfold given
              rw [List.filter_cons, if_pos (by simp [AddCall.isFor, hs, hn])]
              simp
            rw [if_pos hn, e]
            simp [he, loadData_append]
          · have e : given t.name n (c :: cs) = given t.name n cs := by
              unfold given
              rw [List.filter_cons, if_neg (by simp [AddCall.isFor, hn])]
            rw [if_neg hn, e]
        · rw [if_neg (by intro hh; exact hs hh.2)] at hq; subst hq
          have e : given t.name n (c :: cs) = given t.name n cs := by
            unfold given
            rw [List.filter_cons, if_neg (by simp [AddCall.isFor, hs])]
          rw [e]

/-! ### sorting of indexes -/

theorem mem_insertSorted (le : Nat → Nat → Bool) (x y : Nat) (l : List Nat) : y ∈ insertSorted le x l ↔ y = x ∨ y ∈ l := by
  induction l with
  | nil => simp [insertSorted]
  | cons a l ih =>
    unfold insertSorted
    split
    · simp
    · simp [ih]; grind

theorem mem_sorted (le : Nat → Nat → Bool) (y : Nat) (l : List Nat) : y ∈ sorted le l ↔ y ∈ l := by
  induction l with
  | nil => simp [sorted]
  | cons a l ih =>
    have : sorted le (a :: l) = insertSorted le a (sorted le l) := rfl
    rw [this, mem_insertSorted, ih]; simp

theorem insertSorted_lt (x : Nat) (l : List Nat) (h : l.Pairwise (· < ·)) (hx : x ∉ l) :
    (insertSorted (fun a b => decide (a ≤ b)) x l).Pairwise (· < ·) := by
  induction l with
  | nil => simp [insertSorted]
  | cons a l ih =>
    rw [List.pairwise_cons] at h
    simp only [List.mem_cons, not_or] at hx
    unfold insertSorted
    split
    · rename_i hle
      simp only [decide_eq_true_eq] at hle
      rw [List.pairwise_cons]
      refine ⟨?_, List.pairwise_cons.2 h⟩
      intro y hy
      rcases List.mem_cons.1 hy with rfl | hy
      · omega
      · have := h.1 y hy; omega
    · rename_i hle
      simp only [decide_eq_true_eq] at hle
      rw [List.pairwise_cons]
      refine ⟨?_, ih h.2 hx.2⟩
      intro y hy
      rcases (mem_insertSorted _ _ _ _).1 hy with rfl | hy
      · omega
      · exact h.1 y hy

theorem sorted_lt (l : List Nat) (h : l.Nodup) : (sorted (fun a b => decide (a ≤ b)) l).Pairwise (· < ·) := by
  induction l with
  | nil => simp [sorted]
  | cons a l ih =>
    rw [List.nodup_cons] at h
    have : sorted (fun a b => decide (a ≤ b)) (a :: l) = insertSorted (fun a b => decide (a ≤ b)) a (sorted (fun a b => decide (a ≤ b)) l) := rfl
    rw [this]
    exact insertSorted_lt _ _ (ih h.2) (by rw [mem_sorted]; exact h.1)

theorem eraseDups_nodupN (l : List Nat) : l.eraseDups.Nodup := by
  induction h : l.length using Nat.strongRecOn generalizing l with
  | _ n ih =>
    cases l with
    | nil => simp
    | cons a as =>
      rw [List.eraseDups_cons, List.nodup_cons]
      refine ⟨?_, ih _ ?_ _ rfl⟩
      · rw [List.mem_eraseDups]; simp
      · subst h; simp only [List.length_cons]
        have := List.length_filter_le (fun b => !b == a) as
        omega

theorem sortedSet_lt (l : List Nat) : (sortedSet l).Pairwise (· < ·) := sorted_lt _ (eraseDups_nodupN l)

theorem mem_sortedSet (l : List Nat) (x : Nat) : x ∈ sortedSet l ↔ x ∈ l := by
  unfold sortedSet; rw [mem_sorted, List.mem_eraseDups]

theorem inputGroups_lt (gs : List TopGroup) (n : Str) (ns : List Str) : (inputGroups gs n ns).Pairwise (· < ·) := by
  unfold inputGroups
  dsimp only
  split <;> exact sortedSet_lt _

theorem mem_inputGroups (gs : List TopGroup) (n : Str) (ns : List Str) (i : Nat) :
    i ∈ inputGroups gs n ns ↔
      (∃ g ∈ gs, g.index = i ∧ n ∈ g.inputs) ∨
      ((∀ g ∈ gs, n ∉ g.inputs) ∧ ∃ g ∈ gs, g.index = i ∧ g.inputs = [] ∧ (c!"all" ∈ ns ∨ g.name ∈ ns)) := by
  unfold inputGroups
  dsimp only
  split
  · rename_i h
    rw [mem_sortedSet]
    have h2 : ∃ g ∈ gs, n ∈ g.inputs := by
      cases e : (gs.filter (fun g => decide (n ∈ g.inputs))) with
      | nil => rw [e] at h; exact absurd rfl h
      | cons a l =>
        have : a ∈ gs.filter (fun g => decide (n ∈ g.inputs)) := by rw [e]; simp
        simp at this
        exact ⟨a, this⟩
    constructor
    · intro hi
      simp only [List.mem_map, List.mem_filter, decide_eq_true_eq] at hi
      obtain ⟨g, ⟨h3, h4⟩, h5⟩ := hi
      exact Or.inl ⟨g, h3, h5, h4⟩
    · rintro (⟨g, h3, h5, h4⟩ | ⟨h3, _⟩)
      · simp only [List.mem_map, List.mem_filter, decide_eq_true_eq]
        exact ⟨g, ⟨h3, h4⟩, h5⟩
      · obtain ⟨g, h4, h5⟩ := h2
        exact absurd h5 (h3 g h4)
  · rename_i h
    rw [mem_sortedSet]
    have h2 : ∀ g ∈ gs, n ∉ g.inputs := by
      intro g hg hn
      apply h
      intro e
      have : g.index ∈ (gs.filter (fun g => decide (n ∈ g.inputs))).map (·.index) := by
        simp only [List.mem_map, List.mem_filter, decide_eq_true_eq]
        exact ⟨g, ⟨hg, hn⟩, rfl⟩
      rw [e] at this
      cases this
    constructor
    · intro hi
      simp only [List.mem_map, List.mem_filter, Bool.and_eq_true, Bool.or_eq_true, decide_eq_true_eq] at hi
      obtain ⟨g, ⟨h3, h4, h6⟩, h5⟩ := hi
      exact Or.inr ⟨h2, g, h3, h5, h4, h6⟩
    · rintro (⟨g, h3, h5, h4⟩ | ⟨_, g, h3, h5, h4, h6⟩)
      · exact absurd h4 (h2 g h3)
      · simp only [List.mem_map, List.mem_filter, Bool.and_eq_true, Bool.or_eq_true, decide_eq_true_eq]
        exact ⟨g, ⟨h3, h4, h6⟩, h5⟩

/-! ### parsing -/

theorem parseDatum_results (E : Engine) (t : Tpl) (v : Val) (inp : TInput) (d : Datum) (m : Val) (g : Dict Str Val) :
    parseDatum E { t with results := v } inp d m g = parseDatum E t inp d m g := by
  have hg : ∀ is, groupsOf { t with results := v } is = groupsOf t is := by
    intro is
    induction is with
    | nil => rfl
    | cons i is ih => simp only [groupsOf, ih]
  unfold parseDatum
  simp only [hg]

theorem EachOf_results (E : Engine) (t : Tpl) (v : Val) (js : List (TInput × Datum)) (g g' : Dict Str Val) (es : List Val) :
    EachOf E { t with results := v } js g g' es ↔ EachOf E t js g g' es := by
  constructor
  · intro h
    induction h with
    | nil => exact .nil _
    | cons h1 h2 _ ih => exact .cons (by rw [parseDatum_results] at h1; exact h1) h2 ih
  · intro h
    induction h with
    | nil => exact .nil _
    | cons h1 h2 _ ih => exact .cons (by rw [parseDatum_results]; exact h1) h2 ih

theorem formResults_input (t : Tpl) (r : Val) (t' : Tpl) (hm : t.method = c!"per_input") (xs : List Val)
    (hr : t.results = .list xs) :
    formResults t r = .ok t' ↔ ∃ e, formDatum r = .ok e ∧ t' = { t with results := .list (xs ++ [e]) } := by
  unfold formResults
  rw [bind_ok_iff]
  constructor
  · rintro ⟨e, h1, h2⟩
    refine ⟨e, h1, ?_⟩
    rw [if_neg (by rw [hm]; decide), if_pos hm, hr] at h2
    simp only [pure_ok, Except.ok.injEq] at h2
    exact h2.symm
  · rintro ⟨e, h1, h2⟩
    refine ⟨e, h1, ?_⟩
    rw [if_neg (by rw [hm]; decide), if_pos hm, hr, h2]
    rfl

theorem parsePerInput_iff (E : Engine) (js : List (TInput × Datum)) (t : Tpl) (g : Dict Str Val) (xs : List Val)
    (hm : t.method = c!"per_input") (hr : t.results = .list xs) (t' : Tpl) (g' : Dict Str Val) :
    parsePerInput E js t g = .ok (t', g') ↔ ∃ es, EachOf E t js g g' es ∧ t' = { t with results := .list (xs ++ es) } := by
  induction js generalizing t g xs with
  | nil =>
    simp only [parsePerInput, pure_ok, Except.ok.injEq, Prod.mk.injEq]
    constructor
    · rintro ⟨rfl, rfl⟩
      exact ⟨[], .nil _, by cases t; simp_all⟩
    · rintro ⟨es, h, rfl⟩
      cases h
      exact ⟨by cases t; simp_all, rfl⟩
  | cons j js ih =>
    obtain ⟨inp, d⟩ := j
    simp only [parsePerInput, bind_ok_iff]
    constructor
    · rintro ⟨⟨r, g1⟩, h1, t1, h2, h3⟩
      obtain ⟨e, he, rfl⟩ := (formResults_input t r t1 hm xs hr).1 h2
      obtain ⟨es, h4, h5⟩ := (ih { t with results := .list (xs ++ [e]) } g1 (xs ++ [e]) hm rfl).1 h3
      refine ⟨e :: es, .cons h1 he ((EachOf_results E t _ js g1 g' es).1 h4), ?_⟩
      rw [h5]; simp
    · rintro ⟨es, h, rfl⟩
      cases h with
      | cons h1 he h3 =>
        rename_i g1 r e es
        refine ⟨(r, g1), h1, _, (formResults_input t r _ hm xs hr).2 ⟨e, he, rfl⟩, ?_⟩
        refine (ih { t with results := .list (xs ++ [e]) } g1 (xs ++ [e]) hm rfl).2 ⟨es, (EachOf_results E t _ js g1 g' es).2 h3, ?_⟩
        simp

theorem parsePerTemplate_iff (E : Engine) (js : List (TInput × Datum)) (t : Tpl) (g : Dict Str Val) (v w : Val)
    (g' : Dict Str Val) : parsePerTemplate E t js v g = .ok (w, g') ↔ Chained E t js v g w g' := by
  induction js generalizing v g with
  | nil =>
    simp only [parsePerTemplate, pure_ok, Except.ok.injEq, Prod.mk.injEq]
    constructor
    · rintro ⟨rfl, rfl⟩; exact .nil _ _
    · intro h; cases h; exact ⟨rfl, rfl⟩
  | cons j js ih =>
    obtain ⟨inp, d⟩ := j
    simp only [parsePerTemplate, bind_ok_iff]
    constructor
    · rintro ⟨⟨r, g1⟩, h1, h2⟩
      exact .cons h1 ((ih _ _).1 h2)
    · intro h
      cases h with
      | cons h1 h2 => exact ⟨_, h1, (ih _ _).2 h2⟩

theorem EachOf_length (E : Engine) (t : Tpl) (js : List (TInput × Datum)) (g g' : Dict Str Val) (es : List Val)
    (h : EachOf E t js g g' es) : es.length = js.length := by
  induction h with
  | nil => rfl
  | cons _ _ _ ih => simp [ih]

theorem parseAllOne_at (E : Engine) (ts ts' : List Tpl) (g g' : Dict Str Val) (h : parseAllOne E ts g = .ok (ts', g')) :
    ts'.length = ts.length ∧
    ∀ (i : Nat) (t : Tpl), ts[i]? = some t → ∃ g0 g1 t', parseTplOne E t g0 = .ok (t', g1) ∧ ts'[i]? = some t' := by
  induction ts generalizing g ts' with
  | nil =>
    simp only [parseAllOne, pure_ok, Except.ok.injEq, Prod.mk.injEq] at h
    obtain ⟨rfl, rfl⟩ := h
    exact ⟨rfl, by intro i t h; simp at h⟩
  | cons t ts ih =>
    simp only [parseAllOne, bind_ok_iff] at h
    obtain ⟨⟨t1, g1⟩, h1, ⟨ts1, g2⟩, h2, h3⟩ := h
    simp only [pure_ok, Except.ok.injEq, Prod.mk.injEq] at h3
    obtain ⟨rfl, rfl⟩ := h3
    obtain ⟨hl, h4⟩ := ih _ _ h2
    refine ⟨by simp [hl], ?_⟩
    intro i q hq
    cases i with
    | zero => simp at hq; subst hq; exact ⟨g, g1, t1, h1, by simp⟩
    | succ i => simp at hq; simpa using h4 i q hq

theorem runOutputsAll_at (E : Engine) (ts ts' : List Tpl) (h : runOutputsAll E ts = .ok ts') :
    ts'.length = ts.length ∧ ∀ (i : Nat) (t : Tpl), ts[i]? = some t → ∃ t', runOutputs E t = .ok t' ∧ ts'[i]? = some t' := by
  induction ts generalizing ts' with
  | nil =>
    simp only [runOutputsAll, pure_ok, Except.ok.injEq] at h
    subst h
    exact ⟨rfl, by intro i t h; simp at h⟩
  | cons t ts ih =>
    simp only [runOutputsAll, bind_ok_iff] at h
    obtain ⟨t1, h1, ts1, h2, h3⟩ := h
    simp only [pure_ok, Except.ok.injEq] at h3
    subst h3
    obtain ⟨hl, h4⟩ := ih _ h2
    refine ⟨by simp [hl], ?_⟩
    intro i q hq
    cases i with
    | zero => simp at hq; subst hq; exact ⟨t1, h1, by simp⟩
    | succ i => simp at hq; simpa using h4 i q hq

theorem runOutputs_nil (E : Engine) (t : Tpl) (h : t.outputs = []) : runOutputs E t = .ok t := by
  unfold runOutputs
  rw [h]
  simp only [runOutputsAux, pure_ok, ok_bind]
  cases t
  simp_all

/-- every template is parsed from some global variables, then its outputs run -/
theorem parseOne_at (E : Engine) (o o' : TTPObj) (h : parseOne E o = .ok o') (i : Nat) (t : Tpl)
    (ht : o.templates[i]? = some t) :
    ∃ g0 g1 t1 t2, parseTplOne E t g0 = .ok (t1, g1) ∧ runOutputs E t1 = .ok t2 ∧ o'.templates[i]? = some t2 := by
  simp only [parseOne, bind_ok_iff] at h
  obtain ⟨⟨ts, g⟩, h1, ts', h2, h3⟩ := h
  simp only [pure_ok, Except.ok.injEq] at h3
  subst h3
  obtain ⟨g0, g1, t1, h4, h5⟩ := (parseAllOne_at E _ _ _ _ h1).2 i t ht
  obtain ⟨t2, h6, h7⟩ := (runOutputsAll_at E _ _ h2).2 i t1 h5
  exact ⟨g0, g1, t1, t2, h4, h6, h7⟩

theorem parseDatum_gvars (E : Engine) (hE : E.KeepsGlobals) (t : Tpl) (inp : TInput) (d : Datum) (m : Val)
    (g g' : Dict Str Val) (r : Val) (h : parseDatum E t inp d m g = .ok (r, g')) : g' = g := by
  simp only [parseDatum, bind_ok_iff] at h
  obtain ⟨⟨text, name⟩, _, text', _, gs, _, h⟩ := h
  have hm : KeepsM E.mf (fun _ g' => g' = g) := by
    intro f env v env' v' fl hp he; rw [hE.1 _ _ _ _ _ _ he]; exact hp
  have hg : KeepsG E.gf (fun _ g' => g' = g) := by
    intro f ms v ms' v' fl hp he; rw [hE.2 _ _ _ _ _ _ he]; exact hp
  dsimp only at h
  split at h
  · rw [bind_ok_iff] at h
    obtain ⟨ms, h1, h2⟩ := h
    simp only [pure_ok, Except.ok.injEq, Prod.mk.injEq] at h2
    rw [← h2.2]
    exact parseText_env E.mf E.gf _ hm hg _ _ _ _ _ _ _ rfl h1
  · rw [bind_ok_iff] at h
    obtain ⟨ms, h1, h2⟩ := h
    simp only [pure_ok, Except.ok.injEq, Prod.mk.injEq] at h2
    rw [← h2.2]
    exact parseText_env E.mf E.gf _ hm hg _ _ _ _ _ _ _ rfl h1
  · simp at h

theorem EachOf_gvars (E : Engine) (hE : E.KeepsGlobals) (t : Tpl) (js : List (TInput × Datum)) (g g' : Dict Str Val)
    (es : List Val) (h : EachOf E t js g g' es) :
    g' = g ∧ ∀ (i : Nat) inp d, js[i]? = some (inp, d) →
      ∃ r e, parseDatum E t inp d (.dict []) g = .ok (r, g) ∧ formDatum r = .ok e ∧ es[i]? = some e := by
  induction h with
  | nil => exact ⟨rfl, by intro i inp d h; simp at h⟩
  | cons h1 h2 _ ih =>
    have e1 := parseDatum_gvars E hE _ _ _ _ _ _ _ h1
    subst e1
    refine ⟨ih.1, ?_⟩
    intro i inp d hi
    cases i with
    | zero =>
      simp at hi
      obtain ⟨rfl, rfl⟩ := hi
      exact ⟨_, _, h1, h2, by simp⟩
    | succ i => simp at hi; simpa using ih.2 i inp d hi

theorem Chained_gvars (E : Engine) (hE : E.KeepsGlobals) (t : Tpl) (js : List (TInput × Datum)) (v w : Val) (g g' : Dict Str Val)
    (h : Chained E t js v g w g') : g' = g := by
  induction h with
  | nil => rfl
  | cons h1 _ ih =>
    have e1 := parseDatum_gvars E hE _ _ _ _ _ _ _ h1
    subst e1
    exact ih

theorem Chained_results (E : Engine) (t : Tpl) (u : Val) (js : List (TInput × Datum)) (v w : Val) (g g' : Dict Str Val) :
    Chained E { t with results := u } js v g w g' ↔ Chained E t js v g w g' := by
  constructor
  · intro h
    induction h with
    | nil => exact .nil _ _
    | cons h1 _ ih => exact .cons (by rw [parseDatum_results] at h1; exact h1) ih
  · intro h
    induction h with
    | nil => exact .nil _ _
    | cons h1 _ ih => exact .cons (by rw [parseDatum_results]; exact h1) ih

theorem formResults_template (t : Tpl) (r : Val) (t' : Tpl) (hm : t.method = c!"per_template") :
    formResults t r = .ok t' ↔ ∃ e, formDatum r = .ok e ∧ t' = { t with results := e } := by
  unfold formResults
  rw [bind_ok_iff]
  constructor
  · rintro ⟨e, h1, h2⟩
    refine ⟨e, h1, ?_⟩
    rw [if_pos hm] at h2
    simp only [pure_ok, Except.ok.injEq] at h2
    exact h2.symm
  · rintro ⟨e, h1, h2⟩
    refine ⟨e, h1, ?_⟩
    rw [if_pos hm, h2]
    rfl

theorem parseTplOne_input (E : Engine) (t t' : Tpl) (g g' : Dict Str Val) (hm : t.method = c!"per_input") (xs : List Val)
    (hr : t.results = .list xs) :
    parseTplOne E t g = .ok (t', g') ↔
      ∃ es, EachOf E t (jobsOf t) g g' es ∧ t' = { t with results := .list (xs ++ es) } := by
  unfold parseTplOne
  rw [if_pos (by rw [hm]; decide)]
  exact parsePerInput_iff E _ t g xs hm hr t' g'

theorem parseTplOne_template (E : Engine) (t t' : Tpl) (g g' : Dict Str Val) (hm : t.method = c!"per_template") :
    parseTplOne E t g = .ok (t', g') ↔
      ∃ w e, Chained E t (jobsOf t) (.dict []) g w g' ∧ formDatum w = .ok e ∧ t' = { t with results := e } := by
  unfold parseTplOne
  rw [if_neg (by rw [hm]; decide), if_pos (by rw [hm]; decide), bind_ok_iff]
  constructor
  · rintro ⟨⟨w, g1⟩, h1, h2⟩
    rw [bind_ok_iff] at h2
    obtain ⟨t1, h2, h3⟩ := h2
    simp only [pure_ok, Except.ok.injEq, Prod.mk.injEq] at h3
    obtain ⟨rfl, rfl⟩ := h3
    obtain ⟨e, he, rfl⟩ := (formResults_template t w t1 hm).1 h2
    exact ⟨w, e, (parsePerTemplate_iff E _ t g _ w g1).1 h1, he, rfl⟩
  · rintro ⟨w, e, h1, he, rfl⟩
    refine ⟨(w, g'), (parsePerTemplate_iff E _ t g _ w g').2 h1, ?_⟩
    rw [bind_ok_iff]
    exact ⟨_, (formResults_template t w _ hm).2 ⟨e, he, rfl⟩, rfl⟩

end TTP
