import Verif.Proofs.Object
import Verif.Proofs.Equal
import Verif.Props.Parser
/-!
# C31-C34, C39-C44, C47, C62: the parser object

`E : Engine` stands for the file system and for the functions used by the templates.
-/

namespace Props
open Py Spec TTP

namespace Ex

/-- no files -/
def world0 : World := ⟨fun _ => false, fun _ => false, fun _ => [], fun _ => throw .fileNotFound, fun _ => 0, fun _ => 0, none, fun _ => []⟩
/-- no functions, the formatter `wrap` puts the data in a list -/
def eng0 : Engine :=
  ⟨world0, mf0, gf0, fun _ v => pure (v, none), fun _ _ _ => throw .keyError, fun _ v => pure (.list [v]),
   fun n => if n = c!"wrap" then some (fun v => pure (.list [v])) else none, fun _ => none, false, List.eraseDups⟩
/-- match function that counts in the global variable `n` and adds the count to the values -/
def mfGlob : MatchFns := fun _ env v =>
  let n := match Dict.get? env.gvars c!"n" with
    | some (.int k) => k + 1
    | _ => 1
  pure (⟨env.vars, Dict.set env.gvars c!"n" (.int n)⟩, v, .newField [(.s c!"n", .int n)])
/-- match function that counts in the variable `n` and adds the count to the values -/
def mfVar : MatchFns := fun _ env v =>
  let n := match Dict.get? env.vars c!"n" with
    | some (.int k) => k + 1
    | _ => 1
  pure (⟨Dict.set env.vars c!"n" (.int n), env.gvars⟩, v, .newField [(.s c!"n", .int n)])
/-- engines with these functions -/
def engGlob : Engine := { eng0 with mf := mfGlob }
/-- engines with these functions -/
def engVar : Engine := { eng0 with mf := mfVar }
/-- a line with a function on its variable -/
def lineCount : LineRx :=
  { compileText c!"interface {{ name }}" with action := .start, vars := [(c!"name", c!"name", [⟨c!"count", [], []⟩])] }
/-- group with the line -/
def grpC : Grp := .mk infoI [lineCount] [] [] false []
/-- a template with two groups -/
def tpl0 : Tpl :=
  ⟨c!"_root_template_", [⟨0, c!"interfaces*", [], grpI⟩, ⟨1, c!"other", [c!"in2"], grpC⟩], [], [], [], [], [], [], c!"per_input", .list []⟩
/-- a template with the counting group and two data items -/
def tplC : Tpl :=
  { tpl0 with groups := [⟨0, c!"interfaces*", [], grpC⟩],
              inputs := [(c!"in", ⟨[⟨.text, .str c!"interface a"⟩, ⟨.text, .str c!"interface b"⟩], [0], [], .dict []⟩)] }
/-- parser object -/
def obj0 : TTPObj := ⟨[tpl0, { tpl0 with name := c!"b" }], [], [], []⟩
/-- parser object -/
def objC : TTPObj := ⟨[tplC], [], [], []⟩
/-- stored results of all templates after a parse -/
def resultsOf (r : PyM TTPObj) : Option (List Val) :=
  match r with
  | .ok o => some (o.templates.map (·.results))
  | .error _ => none

end Ex

/-! ## C31 -/

/-- C31. After any sequence of `add_input` calls, in any file systems, the data of an input are its former data followed by
the new ones among the given data items, each once, in the order of first appearance. -/
theorem C31_add_input_distinct (o : TTPObj) (calls : List AddCall) (i : Nat) (t : Tpl) (n : Str)
    (h : o.templates[i]? = some t) (hnew : t.dataOf n ≠ none ∨ given t.name n calls ≠ []) :
    ∃ t', (addInputs o calls).templates[i]? = some t' ∧
      t'.dataOf n = some ((t.dataOf n).getD [] ++ ((given t.name n calls).removeAll ((t.dataOf n).getD [])).eraseDups) ∧
      (((t.dataOf n).getD []).Nodup → ∀ l, t'.dataOf n = some l → l.Nodup ∧
        ∀ d, d ∈ l ↔ d ∈ (t.dataOf n).getD [] ∨ d ∈ given t.name n calls) := by
  obtain ⟨t', h1, _, _, h2⟩ := addInputs_at calls o i t n h
  refine ⟨t', h1, ?_, ?_⟩
  · rw [h2, if_neg, loadData_eq]
    rintro ⟨a, b⟩
    rcases hnew with hn | hn
    · exact hn a
    · exact hn b
  · intro hd l hl
    rw [h2, if_neg (by rintro ⟨a, b⟩; rcases hnew with hn | hn; exact hn a; exact hn b)] at hl
    simp only [Option.some.injEq] at hl
    subst hl
    refine ⟨?_, fun d => mem_loadData _ _ d⟩
    rw [loadData_eq, List.nodup_append]
    refine ⟨hd, eraseDups_nodup _, ?_⟩
    intro a ha b hb e
    subst e
    rw [List.mem_eraseDups] at hb
    simp [List.removeAll] at hb
    exact hb.2 ha

/-- C31. An input without any data given for it does not come into being. -/
theorem C31_no_data_no_input (o : TTPObj) (calls : List AddCall) (i : Nat) (t : Tpl) (n : Str)
    (h : o.templates[i]? = some t) (h0 : t.dataOf n = none) (h1 : given t.name n calls = []) :
    ∃ t', (addInputs o calls).templates[i]? = some t' ∧ t'.dataOf n = none := by
  obtain ⟨t', h2, _, _, h3⟩ := addInputs_at calls o i t n h
  exact ⟨t', h2, by rw [h3, if_pos ⟨h0, h1⟩]⟩

/-- the hypotheses are met: two calls for the same input of one template, one for another template -/
example : Ex.obj0.templates[0]? = some Ex.tpl0 ∧
    given c!"_root_template_" c!"in" [⟨Ex.eng0, .str c!"x", c!"in", c!"_root_template_", []⟩,
      ⟨Ex.eng0, .str c!"y", c!"in", c!"b", []⟩, ⟨Ex.eng0, .str c!"x", c!"in", c!"_all_", []⟩] =
      [⟨.text, .str c!"x"⟩, ⟨.text, .str c!"x"⟩] := ⟨rfl, by decide +kernel⟩

/-! ## C32 -/

/-- C32. `set_input` leaves for a selected template exactly the new input, with the distinct data items in order (no input if
there are no data items), and changes nothing else. -/
theorem C32_set_input (E : Engine) (o : TTPObj) (data : Val) (n tn : Str) (names : List Str) :
    setInput E o data n tn names = { o with templates := o.templates.map (fun t =>
      if t.name = tn ∨ tn = c!"_all_" then
        { t with inputs := if loadFiles E.world data = [] then [] else
          [(n, ⟨(loadFiles E.world data).eraseDups, inputGroups t.groups n (orAll names), [], .dict []⟩)] }
      else t) } := by
  unfold setInput addInput clearInput
  dsimp only
  split
  · rename_i he
    simp only [TTPObj.mk.injEq, and_true]
    apply List.map_congr_left
    intro t _
    simp [selected, he]
  · rename_i he
    simp only [TTPObj.mk.injEq, and_true]
    rw [List.map_map]
    apply List.map_congr_left
    intro t _
    by_cases hs : t.name = tn ∨ tn = c!"_all_"
    · have e : selected tn t = true := by simpa [selected] using hs
      simp only [Function.comp, e, if_true, if_pos hs]
      rw [if_pos (by simpa [selected] using hs)]
      simp only [updateInput, Dict.get?, Dict.set, loadData_nil, he, if_false]
    · have e : selected tn t = false := by simpa [selected] using hs
      simp only [Function.comp, e, if_neg hs]
      simp [e]

/-- C32. `set_input` is `clear_input` followed by `add_input`. -/
theorem C32_set_is_clear_add (E : Engine) (o : TTPObj) (data : Val) (n tn : Str) (names : List Str) :
    setInput E o data n tn names = addInput E (clearInput o tn) data n tn names := rfl

/-! ## C33 -/

/-- C33. One process, `per_input`: a template is parsed successfully exactly if each of its data items is (in the order of
inputs and data), and then one entry for each is appended to the results; nothing else of the template changes. -/
theorem C33_per_input_entries (E : Engine) (t t' : Tpl) (g g' : Dict Str Val) (hm : t.method = c!"per_input")
    (xs : List Val) (hr : t.results = .list xs) :
    parseTplOne E t g = .ok (t', g') ↔
      ∃ es, EachOf E t (t.inputs.flatMap (fun i => i.2.data.map (fun d => (i.2, d)))) g g' es ∧
        es.length = (t.inputs.flatMap (fun i => i.2.data)).length ∧ t' = { t with results := .list (xs ++ es) } := by
  have ej : jobsOf t = t.inputs.flatMap (fun i => i.2.data.map (fun d => (i.2, d))) := by
    simp [jobsOf, List.flatMap]
  have el : (t.inputs.flatMap (fun i => i.2.data.map (fun d => (i.2, d)))).length = (t.inputs.flatMap (fun i => i.2.data)).length := by
    simp [List.length_flatMap]
  rw [parseTplOne_input E t t' g g' hm xs hr, ej]
  constructor
  · rintro ⟨es, h1, h2⟩
    exact ⟨es, h1, by rw [EachOf_length _ _ _ _ _ _ h1, el], h2⟩
  · rintro ⟨es, h1, _, h2⟩
    exact ⟨es, h1, h2⟩

/-- C33. The same after `parse(one=True)` on a parser with any templates, for a template without outputs. -/
theorem C33_parse_one_per_input (E : Engine) (o o' : TTPObj) (h : parseOne E o = .ok o') (i : Nat) (t : Tpl)
    (ht : o.templates[i]? = some t) (hm : t.method = c!"per_input") (ho : t.outputs = []) (xs : List Val)
    (hr : t.results = .list xs) :
    ∃ g g' es, EachOf E t (jobsOf t) g g' es ∧ es.length = (t.inputs.flatMap (fun i => i.2.data)).length ∧
      o'.templates[i]? = some { t with results := .list (xs ++ es) } := by
  obtain ⟨g0, g1, t1, t2, h1, h2, h3⟩ := parseOne_at E o o' h i t ht
  obtain ⟨es, h4, h5, h6⟩ := (C33_per_input_entries E t t1 g0 g1 hm xs hr).1 h1
  have ej : jobsOf t = t.inputs.flatMap (fun i => i.2.data.map (fun d => (i.2, d))) := by
    simp [jobsOf, List.flatMap]
  refine ⟨g0, g1, es, by rw [ej]; exact h4, h5, ?_⟩
  rw [h3]
  have : t1.outputs = [] := by rw [h6]; exact ho
  rw [runOutputs_nil E t1 this] at h2
  simp only [Except.ok.injEq] at h2
  rw [← h2, h6]

/-- a parse with two data items, twice -/
example : Ex.resultsOf (do parseOne Ex.eng0 (← parseOne Ex.eng0 Ex.objC)) = some [.list [
    .dict [(.s c!"interfaces", .list [.dict [(.s c!"name", .str c!"a"), (.s c!"mtu", .str c!"1500")]])],
    .dict [(.s c!"interfaces", .list [.dict [(.s c!"name", .str c!"b"), (.s c!"mtu", .str c!"1500")]])],
    .dict [(.s c!"interfaces", .list [.dict [(.s c!"name", .str c!"a"), (.s c!"mtu", .str c!"1500")]])],
    .dict [(.s c!"interfaces", .list [.dict [(.s c!"name", .str c!"b"), (.s c!"mtu", .str c!"1500")]])]]] := by
  decide +kernel

/-- The method is compared without regard to case when the data are parsed but not when results are stored: with `PER_INPUT`
the results are lost. -/
theorem C33_upper_case_method_loses_results :
    Ex.resultsOf (parseOne Ex.eng0 ⟨[{ Ex.tplC with method := c!"PER_INPUT" }], [], [], []⟩) = some [.list []] := by
  decide +kernel

/-! ## C34 -/

/-- C34. `per_template`: the data items are parsed one after the other, each continues the structure left by the one before,
and what is stored at the end replaces the former results (`t.results` does not occur on the right). -/
theorem C34_per_template_combined (E : Engine) (t t' : Tpl) (g g' : Dict Str Val) (hm : t.method = c!"per_template") :
    parseTplOne E t g = .ok (t', g') ↔
      ∃ w e, Chained E t (t.inputs.flatMap (fun i => i.2.data.map (fun d => (i.2, d)))) (.dict []) g w g' ∧
        formDatum w = .ok e ∧ t' = { t with results := e } := by
  have ej : jobsOf t = t.inputs.flatMap (fun i => i.2.data.map (fun d => (i.2, d))) := by
    simp [jobsOf, List.flatMap]
  rw [parseTplOne_template E t t' g g' hm, ej]

/-- C34. A second parse gives the same results as the first, if functions do not change global variables. -/
theorem C34_second_parse_replaces (E : Engine) (hE : E.KeepsGlobals) (t t' : Tpl) (g g' : Dict Str Val)
    (hm : t.method = c!"per_template") (h : parseTplOne E t g = .ok (t', g')) : parseTplOne E t' g' = .ok (t', g') := by
  obtain ⟨w, e, h1, h2, h3⟩ := (parseTplOne_template E t t' g g' hm).1 h
  have hg := Chained_gvars E hE _ _ _ _ _ _ h1
  subst hg h3
  refine (parseTplOne_template E { t with results := e } _ _ _ hm).2 ⟨w, e, ?_, h2, rfl⟩
  exact (Chained_results E t e _ _ _ _ _).2 h1

/-- two data items, one structure; a second parse changes nothing -/
example : Ex.resultsOf (do parseOne Ex.eng0 (← parseOne Ex.eng0 ⟨[{ Ex.tplC with method := c!"per_template" }], [], [], []⟩)) =
    some [.dict [(.s c!"interfaces", .list [.dict [(.s c!"name", .str c!"a"), (.s c!"mtu", .str c!"1500")],
      .dict [(.s c!"name", .str c!"b"), (.s c!"mtu", .str c!"1500")]])]] := by decide +kernel

/-! ## C39 -/

/-- C39. Which way `parse` goes: `size` and `count` are the size and number of the data items. -/
theorem C39_mode (threshold size count : Nat) (one multi : Bool) :
    (parseMode threshold size count one multi = .exit ↔ one = true ∧ multi = true) ∧
    (parseMode threshold size count one multi = .multi ↔
      one = false ∧ (multi = true ∨ (threshold < size ∧ 2 ≤ count))) ∧
    (parseMode threshold size count one multi = .one ↔
      multi = false ∧ (one = true ∨ size ≤ threshold ∨ count < 2)) := by
  unfold parseMode
  by_cases h : size > threshold ∧ count ≥ 2
  · cases one <;> cases multi <;> simp [h] <;> omega
  · have h' : ¬ (threshold < size ∧ 2 ≤ count) := h
    cases one <;> cases multi <;> simp [h, h'] <;> omega

/-- C39. The number of data items counted is the number of data items of all inputs of all templates, the size is the sum of
the sizes of files and texts. -/
theorem C39_count (w : World) (o : TTPObj) :
    (dataSize w o).2 = ((o.templates.flatMap (fun t => t.inputs.flatMap (fun i => i.2.data))).length) ∧
    ((∀ d ∈ o.templates.flatMap (fun t => t.inputs.flatMap (fun i => i.2.data)), d.kind = .text) →
      (dataSize w o).1 = ((o.templates.flatMap (fun t => t.inputs.flatMap (fun i => i.2.data))).map (fun d => w.sizeOf d.val)).sum) := by
  have e : (o.templates.map jobsOf).flatten.map (·.2) = o.templates.flatMap (fun t => t.inputs.flatMap (fun i => i.2.data)) := by
    unfold jobsOf
    simp only [List.map_flatten, List.map_map, List.flatMap]
    congr 1
    apply List.map_congr_left
    intro t _
    simp only [Function.comp, List.map_flatten, List.map_map]
    congr 1
    apply List.map_congr_left
    intro i _
    simp only [Function.comp, List.map_map]
    exact List.map_id' _
  unfold dataSize
  simp only [e]
  refine ⟨trivial, fun h => ?_⟩
  congr 1
  apply List.map_congr_left
  intro d hd
  have := h d hd
  cases d with
  | mk k v => simp only at this; subst this; rfl

/-! ## C40 -/

/-- C40. `list`: the stored results of the named templates (all without names), in loading order. -/
theorem C40_list (o : TTPObj) (names : List Str) :
    resultList o names = ((o.templates.filter (fun t => decide (names = []) || decide (t.name ∈ names))).map (·.results)) := by
  unfold resultList pick
  split
  · rename_i h; subst h
    congr 1
    exact (List.filter_eq_self.2 (by simp)).symm
  · rename_i h; simp [h]

/-- C40. `flat_list`: the concatenation of the entries of `list`, lists unpacked, and lists in these unpacked once more. -/
theorem C40_flat_list (o : TTPObj) (names : List Str) :
    resultFlat o names = (resultList o names).flatMap (fun r =>
      match r with
      | .list xs => xs.flatMap unpack
      | v => [v]) := by
  unfold resultFlat resultList
  have inner : ∀ (xs : List Val) (acc : List Val),
      xs.foldl (fun ret item => match item with
        | .list ys => ret ++ ys
        | v => ret ++ [v]) acc = acc ++ xs.flatMap unpack := by
    intro xs
    induction xs with
    | nil => simp
    | cons x xs ih => intro acc; rw [List.foldl_cons, ih]; cases x <;> simp [unpack]
  have outer : ∀ (ts : List Tpl) (acc : List Val),
      ts.foldl (fun ret t => match t.results with
        | .list xs => xs.foldl (fun ret item => match item with
          | .list ys => ret ++ ys
          | v => ret ++ [v]) ret
        | v => ret ++ [v]) acc = acc ++ (ts.map (·.results)).flatMap (fun r => match r with
          | .list xs => xs.flatMap unpack
          | v => [v]) := by
    intro ts
    induction ts with
    | nil => simp
    | cons t ts ih =>
      intro acc
      rw [List.foldl_cons, ih]
      simp only [List.map_cons, List.flatMap_cons]
      rw [← List.append_assoc]
      congr 1
      cases t.results <;> simp [inner]
  exact (outer (pick o names) []).trans (List.nil_append _)

/-- C40. `dictionary`: each name (but the empty one) of a selected template is mapped to the results of the last selected
template with that name; there are no other entries and no key occurs twice. -/
theorem C40_dictionary (o : TTPObj) (names : List Str) :
    Dict.WF (resultDict o names) ∧
    ∀ n, Dict.get? (resultDict o names) n =
      if n = [] then none
      else ((o.templates.filter (fun t => decide (names = []) || decide (t.name ∈ names))).reverse.find? (fun t => decide (t.name = n))).map (·.results) := by
  have hp : pick o names = o.templates.filter (fun t => decide (names = []) || decide (t.name ∈ names)) := by
    unfold pick
    split
    · rename_i h; subst h
      exact (List.filter_eq_self.2 (by simp)).symm
    · rename_i h; simp [h]
  unfold resultDict
  rw [← hp]
  generalize pick o names = ts
  have gen : ∀ (ts : List Tpl) (acc : Dict Str Val), Dict.WF acc →
      Dict.WF ((ts.filter (fun t => decide (t.name ≠ []))).foldl (fun d t => Dict.set d t.name t.results) acc) ∧
      ∀ n, Dict.get? ((ts.filter (fun t => decide (t.name ≠ []))).foldl (fun d t => Dict.set d t.name t.results) acc) n =
        ((if n = [] then none else (ts.reverse.find? (fun t => decide (t.name = n))).map (·.results))).or (Dict.get? acc n) := by
    intro ts
    induction ts with
    | nil => intro acc ha; exact ⟨ha, by intro n; simp⟩
    | cons t ts ih =>
      intro acc ha
      by_cases hn : t.name = []
      · rw [List.filter_cons, if_neg (by simp [hn])]
        obtain ⟨h1, h2⟩ := ih acc ha
        refine ⟨h1, fun n => ?_⟩
        rw [h2 n]
        by_cases e : n = []
        · simp [e]
        · have : t.name ≠ n := by rw [hn]; exact fun h => e h.symm
          simp [e, List.find?_append, this]
      · rw [List.filter_cons, if_pos (by simp [hn]), List.foldl_cons]
        obtain ⟨h1, h2⟩ := ih (Dict.set acc t.name t.results) (Dict.WF_set _ _ _ ha)
        refine ⟨h1, fun n => ?_⟩
        rw [h2 n, Dict.get?_set]
        by_cases e : n = []
        · subst e; simp [hn]
        · simp only [e, if_false, List.reverse_cons, List.find?_append, List.find?_cons, List.find?_nil]
          cases ts.reverse.find? (fun t => decide (t.name = n)) with
          | some q => simp
          | none => by_cases hq : t.name = n <;> simp [hq]
  obtain ⟨h1, h2⟩ := gen ts [] List.nodup_nil
  exact ⟨h1, fun n => by rw [h2 n]; simp [Dict.get?]⟩

/-- three templates, two with the same name -/
example : resultDict ⟨[{ Ex.tpl0 with results := .int 1 }, { Ex.tpl0 with name := c!"b", results := .list [.list [.int 2, .int 3], .int 4] },
      { Ex.tpl0 with results := .int 5 }], [], [], []⟩ [] =
      [(c!"_root_template_", .int 5), (c!"b", .list [.list [.int 2, .int 3], .int 4])] ∧
    resultFlat ⟨[{ Ex.tpl0 with results := .int 1 }, { Ex.tpl0 with name := c!"b", results := .list [.list [.int 2, .int 3], .int 4] },
      { Ex.tpl0 with results := .int 5 }], [], [], []⟩ [] = [.int 1, .int 2, .int 3, .int 4, .int 5] := by
  decide +kernel

/-! ## C41 -/

/-- C41. After any sequence of `add_vars` calls each template sees for each variable the value of the last call that set it,
and the value it had before if none did; the same holds for the parser object (for templates loaded later). Nothing else of
a template changes. -/
theorem C41_add_vars (o : TTPObj) (calls : List (Dict Str Val)) (hw : ∀ d ∈ calls, Dict.WF d) (i : Nat) (t : Tpl)
    (ht : o.templates[i]? = some t) :
    (∃ t', (calls.foldl addVars o).templates[i]? = some t' ∧ t' = { t with vars := t'.vars } ∧
      ∀ k, Dict.get? t'.vars k = (lastSet calls k).or (Dict.get? t.vars k)) ∧
    (calls.foldl addVars o).templates.length = o.templates.length ∧
    (∀ k, Dict.get? (calls.foldl addVars o).vars k = (lastSet calls k).or (Dict.get? o.vars k)) := by
  induction calls generalizing o t with
  | nil => exact ⟨⟨t, ht, rfl, fun k => by simp [lastSet]⟩, rfl, fun k => by simp [lastSet]⟩
  | cons d ds ih =>
    have h1 : (addVars o d).templates[i]? = some { t with vars := Dict.update t.vars d } := by
      simp [addVars, ht]
    have hd := hw d (by simp)
    obtain ⟨⟨t', a, b, c⟩, l, v⟩ := ih (addVars o d) (fun x hx => hw x (by simp [hx])) _ h1
    have hl : ∀ k, lastSet (d :: ds) k = (lastSet ds k).or (Dict.get? d k) := by
      intro k
      simp [lastSet, List.findSome?_append]
    refine ⟨⟨t', a, ?_, fun k => ?_⟩, ?_, fun k => ?_⟩
    · rw [b]
    · rw [c k, hl k]
      dsimp only
      rw [Dict.get?_update _ _ hd]
      cases lastSet ds k <;> cases Dict.get? d k <;> rfl
    · rw [List.foldl_cons, l]; simp [addVars]
    · rw [List.foldl_cons, v k, hl k]
      simp only [addVars]
      rw [Dict.get?_update _ _ hd]
      cases lastSet ds k <;> cases Dict.get? d k <;> rfl

example : (([[(c!"a", Val.int 1), (c!"b", .int 2)], [(c!"a", .int 3)]].foldl addVars Ex.obj0).templates.map (·.vars)) =
    [[(c!"a", .int 3), (c!"b", .int 2)], [(c!"a", .int 3), (c!"b", .int 2)]] := by decide +kernel

/-! ## C42 -/

theorem clearResultL_at (names : List Str) (ts ts' : List Tpl) (h : clearResultL names ts = .ok ts') :
    ts'.length = ts.length ∧ ∀ (i : Nat) (t : Tpl), ts[i]? = some t →
      (¬ (names = [] ∨ t.name ∈ names) → ts'[i]? = some t) ∧
      ((names = [] ∨ t.name ∈ names) → ∃ v, clearVal t.results = .ok v ∧ ts'[i]? = some { t with results := v }) := by
  induction ts generalizing ts' with
  | nil =>
    simp only [clearResultL, pure_ok, Except.ok.injEq] at h
    subst h
    exact ⟨rfl, by intro i t h; simp at h⟩
  | cons t ts ih =>
    have h' : ((if names = [] ∨ t.name ∈ names then (do pure { t with results := ← clearVal t.results }) else pure t : PyM Tpl) >>=
        fun t' => clearResultL names ts >>= fun r => pure (t' :: r)) = .ok ts' := by
      rw [← h]; simp only [clearResultL]; split <;> simp
    rw [bind_ok_iff] at h'
    obtain ⟨t1, h1, h2⟩ := h'
    rw [bind_ok_iff] at h2
    obtain ⟨ts1, h2, h3⟩ := h2
    simp only [pure_ok, Except.ok.injEq] at h3
    subst h3
    obtain ⟨hl, h4⟩ := ih _ h2
    refine ⟨by simp [hl], ?_⟩
    intro i q hq
    cases i with
    | zero =>
      simp at hq; subst hq
      refine ⟨fun hn => ?_, fun hn => ?_⟩
      · rw [if_neg hn] at h1
        simp only [pure_ok, Except.ok.injEq] at h1
        simp [h1]
      · rw [if_pos hn, bind_ok_iff] at h1
        obtain ⟨v, hv, h1⟩ := h1
        simp only [pure_ok, Except.ok.injEq] at h1
        exact ⟨v, hv, by simp [h1]⟩
    | succ i => simp at hq; simpa using h4 i q hq

/-- C42. `clear_result` empties the results of the named templates (of all without names) and leaves everything else as it
is. -/
theorem C42_clear_result (o o' : TTPObj) (names : List Str) (h : clearResult o names = .ok o') :
    o' = { o with templates := o'.templates } ∧ o'.templates.length = o.templates.length ∧
    ∀ (i : Nat) (t : Tpl), o.templates[i]? = some t →
      (¬ (names = [] ∨ t.name ∈ names) → o'.templates[i]? = some t) ∧
      ((names = [] ∨ t.name ∈ names) → ∃ v, (v = .list [] ∨ v = .dict []) ∧
        o'.templates[i]? = some { t with results := v } ∧ ((∃ xs, t.results = .list xs) → v = .list [])) := by
  simp only [clearResult, bind_ok_iff] at h
  obtain ⟨ts, h1, h2⟩ := h
  simp only [pure_ok, Except.ok.injEq] at h2
  subst h2
  obtain ⟨hl, h3⟩ := clearResultL_at names _ _ h1
  refine ⟨rfl, hl, ?_⟩
  intro i t ht
  refine ⟨(h3 i t ht).1, fun hn => ?_⟩
  obtain ⟨v, hv, h4⟩ := (h3 i t ht).2 hn
  unfold clearVal at hv
  split at hv
  · rename_i e
    simp only [pure_ok, Except.ok.injEq] at hv
    exact ⟨v, Or.inl hv.symm, h4, fun _ => hv.symm⟩
  · rename_i e
    simp only [pure_ok, Except.ok.injEq] at hv
    exact ⟨v, Or.inr hv.symm, h4, by rintro ⟨xs, hx⟩; rw [e] at hx; cases hx⟩
  · simp at hv

/-- C42. After `clear_result` a parse gives what the first parse gave: templates without outputs, per-input templates begin
with no results, functions that do not change global variables. -/
theorem C42_parse_after_clear_partial (E : Engine) (hE : E.KeepsGlobals) (o o1 : TTPObj)
    (hm : ∀ t ∈ o.templates, t.outputs = [] ∧
      ((t.method = c!"per_input" ∧ t.results = .list []) ∨ t.method = c!"per_template"))
    (h : parseOne E o = .ok o1) (o2 : TTPObj) (h2 : clearResult o1 [] = .ok o2) : parseOne E o2 = .ok o1 := by
  simp only [parseOne, bind_ok_iff] at h
  obtain ⟨⟨ts, g⟩, h1, ts', h3, h4⟩ := h
  simp only [pure_ok, Except.ok.injEq] at h4
  simp only [clearResult, bind_ok_iff] at h2
  obtain ⟨ts2, h5, h6⟩ := h2
  simp only [pure_ok, Except.ok.injEq] at h6
  subst h6 h4
  dsimp only at h5
  have outs : ∀ ts : List Tpl, (∀ t ∈ ts, t.outputs = []) → runOutputsAll E ts = .ok ts := by
    intro ts
    induction ts with
    | nil => intro _; rfl
    | cons t ts ih =>
      intro hh
      simp only [runOutputsAll, runOutputs_nil E t (hh t (by simp)), ih (fun x hx => hh x (by simp [hx])), ok_bind, pure_ok]
  have main : ∀ (a a' : List Tpl) (g g' : Dict Str Val), (∀ t ∈ a, t.outputs = [] ∧
      ((t.method = c!"per_input" ∧ t.results = .list []) ∨ t.method = c!"per_template")) →
      parseAllOne E a g = .ok (a', g') → ∀ b, clearResultL [] a' = .ok b →
      g' = g ∧ (∀ t ∈ a', t.outputs = []) ∧ parseAllOne E b g = .ok (a', g) := by
    intro a
    induction a with
    | nil =>
      intro a' g g' _ hp b hb
      simp only [parseAllOne, pure_ok, Except.ok.injEq, Prod.mk.injEq] at hp
      obtain ⟨rfl, rfl⟩ := hp
      simp only [clearResultL, pure_ok, Except.ok.injEq] at hb
      subst hb
      exact ⟨rfl, by simp, rfl⟩
    | cons t a ih =>
      intro a' g g' hh hp b hb
      simp only [parseAllOne, bind_ok_iff] at hp
      obtain ⟨⟨t1, g1⟩, p1, ⟨a1, g2⟩, p2, p3⟩ := hp
      simp only [pure_ok, Except.ok.injEq, Prod.mk.injEq] at p3
      obtain ⟨rfl, rfl⟩ := p3
      have hb' : (clearVal t1.results >>= fun v => clearResultL [] a1 >>= fun r => (pure ({ t1 with results := v } :: r) : PyM (List Tpl))) = .ok b := by
        rw [← hb]; simp only [clearResultL]; simp
      simp only [bind_ok_iff] at hb'
      obtain ⟨v, v1, b1, q2, q3⟩ := hb'
      simp only [pure_ok, Except.ok.injEq] at q3
      subst q3
      obtain ⟨ho, hmm⟩ := hh t (by simp)
      rcases hmm with ⟨hi, hr⟩ | hi
      · obtain ⟨es, e1, e2⟩ := (parseTplOne_input E t t1 g g1 hi [] hr).1 p1
        have eg := (EachOf_gvars E hE _ _ _ _ _ e1).1
        subst eg
        obtain ⟨r1, r2, r3⟩ := ih a1 g1 g2 (fun x hx => hh x (by simp [hx])) p2 b1 q2
        subst r1
        refine ⟨rfl, ?_, ?_⟩
        · intro x hx
          rcases List.mem_cons.1 hx with rfl | hx
          · rw [e2]; exact ho
          · exact r2 x hx
        · have ev : v = .list [] := by
            rw [e2] at v1; simp only [List.nil_append, clearVal, pure_ok, Except.ok.injEq] at v1; exact v1.symm
          have et : { t1 with results := v } = t := by
            rw [e2, ev]; cases t; simp only at hr; simp [hr]
          rw [et]
          simp only [parseAllOne, p1, ok_bind, r3, pure_ok]
      · obtain ⟨w, e, e1, e2, e3⟩ := (parseTplOne_template E t t1 g g1 hi).1 p1
        have eg := Chained_gvars E hE _ _ _ _ _ _ e1
        subst eg
        obtain ⟨r1, r2, r3⟩ := ih a1 g1 g2 (fun x hx => hh x (by simp [hx])) p2 b1 q2
        subst r1
        refine ⟨rfl, ?_, ?_⟩
        · intro x hx
          rcases List.mem_cons.1 hx with rfl | hx
          · rw [e3]; exact ho
          · exact r2 x hx
        · have : parseTplOne E { t1 with results := v } g2 = .ok (t1, g2) := by
            subst e3
            refine (parseTplOne_template E { t with results := v } _ _ _ hi).2 ⟨w, e, ?_, e2, rfl⟩
            exact (Chained_results E t v _ _ _ _ _).2 e1
          simp only [parseAllOne, this, ok_bind, r3, pure_ok]
  have hts : ts' = ts := by
    have h0 := parseAllOne_at E _ _ _ _ h1
    have hall : ∀ t ∈ ts, t.outputs = [] := by
      intro t ht
      obtain ⟨i, hi⟩ := List.getElem?_of_mem ht
      have hlt : i < o.templates.length := by
        rw [← h0.1]; exact (List.getElem?_eq_some_iff.1 hi).1
      obtain ⟨g0, g1, t1, p1, p2⟩ := h0.2 i o.templates[i] (List.getElem?_eq_getElem hlt)
      rw [hi] at p2
      simp only [Option.some.injEq] at p2
      subst p2
      obtain ⟨ho, hmm⟩ := hm _ (List.getElem_mem hlt)
      rcases hmm with ⟨hi, hr⟩ | hi
      · obtain ⟨es, _, e2⟩ := (parseTplOne_input E _ _ _ _ hi [] hr).1 p1
        rw [e2]; exact ho
      · obtain ⟨w, e, _, _, e3⟩ := (parseTplOne_template E _ _ _ _ hi).1 p1
        rw [e3]; exact ho
    rw [outs ts hall] at h3
    simp only [Except.ok.injEq] at h3
    exact h3.symm
  subst hts
  obtain ⟨r1, r2, r3⟩ := main _ _ _ _ hm h1 _ h5
  subst r1
  simp only [parseOne, r3, ok_bind, outs ts' r2, pure_ok]

/-- the functions of `eng0` and `engVar` do not change global variables -/
example : Ex.eng0.KeepsGlobals ∧ Ex.engVar.KeepsGlobals := by
  refine ⟨⟨?_, ?_⟩, ⟨?_, ?_⟩⟩
  · intro f env v env' v' fl h
    simp only [Ex.eng0, Ex.mf0, pure_ok, Except.ok.injEq, Prod.mk.injEq] at h
    rw [← h.1]
  · intro f ms v ms' v' fl h
    simp only [Ex.eng0, Ex.gf0, pure_ok, Except.ok.injEq, Prod.mk.injEq] at h
    rw [← h.1]
  · intro f env v env' v' fl h
    simp only [Ex.engVar, Ex.eng0, Ex.mfVar, pure_ok, Except.ok.injEq, Prod.mk.injEq] at h
    rw [← h.1]
  · intro f ms v ms' v' fl h
    simp only [Ex.engVar, Ex.eng0, Ex.gf0, pure_ok, Except.ok.injEq, Prod.mk.injEq] at h
    rw [← h.1]

/-- C42 fails with global variables: they are not cleared, so the parse after `clear_result` gives other results. -/
theorem C42_globals_survive_clear :
    Ex.resultsOf (parseOne Ex.engGlob Ex.objC) = some [.list [
      .dict [(.s c!"interfaces", .list [.dict [(.s c!"name", .str c!"a"), (.s c!"n", .int 1), (.s c!"mtu", .str c!"1500")]])],
      .dict [(.s c!"interfaces", .list [.dict [(.s c!"name", .str c!"b"), (.s c!"n", .int 2), (.s c!"mtu", .str c!"1500")]])]]] ∧
    Ex.resultsOf (do parseOne Ex.engGlob (← clearResult (← parseOne Ex.engGlob Ex.objC) [])) = some [.list [
      .dict [(.s c!"interfaces", .list [.dict [(.s c!"name", .str c!"a"), (.s c!"n", .int 3), (.s c!"mtu", .str c!"1500")]])],
      .dict [(.s c!"interfaces", .list [.dict [(.s c!"name", .str c!"b"), (.s c!"n", .int 4), (.s c!"mtu", .str c!"1500")]])]]] := by
  decide +kernel

/-! ## C43 -/

/-- C43. Each entry is what parsing the data item alone, from the template variables, gives, if functions do not change
global variables - whatever they record in the other variables; and global variables stay as they were. -/
theorem C43_no_leak (E : Engine) (hE : E.KeepsGlobals) (t t' : Tpl) (g g' : Dict Str Val)
    (hm : t.method = c!"per_input") (xs : List Val) (hr : t.results = .list xs) (h : parseTplOne E t g = .ok (t', g')) :
    g' = g ∧ t'.vars = t.vars ∧ ∃ es, t'.results = .list (xs ++ es) ∧
      ∀ (i : Nat) inp d, (t.inputs.flatMap (fun i => i.2.data.map (fun d => (i.2, d))))[i]? = some (inp, d) →
        ∃ r e, parseDatum E t inp d (.dict []) g = .ok (r, g) ∧ formDatum r = .ok e ∧ es[i]? = some e := by
  obtain ⟨es, h1, _, h2⟩ := (C33_per_input_entries E t t' g g' hm xs hr).1 h
  obtain ⟨h3, h4⟩ := EachOf_gvars E hE _ _ _ _ _ h1
  exact ⟨h3, by rw [h2], es, by rw [h2], h4⟩

/-- a count in a variable starts again for every data item, a count in a global variable goes on -/
example : Ex.resultsOf (parseOne Ex.engVar Ex.objC) = some [.list [
      .dict [(.s c!"interfaces", .list [.dict [(.s c!"name", .str c!"a"), (.s c!"n", .int 1), (.s c!"mtu", .str c!"1500")]])],
      .dict [(.s c!"interfaces", .list [.dict [(.s c!"name", .str c!"b"), (.s c!"n", .int 1), (.s c!"mtu", .str c!"1500")]])]]] := by
  decide +kernel

/-! ## C44 -/

/-- C44. The groups of a new input: those that name it if there are any, else those without input attribute that it selects;
each once, in ascending order of their index in the template. -/
theorem C44_routing (gs : List TopGroup) (n : Str) (names : List Str) :
    (inputGroups gs n names).Pairwise (· < ·) ∧
    ∀ i, i ∈ inputGroups gs n names ↔
      (∃ g ∈ gs, g.index = i ∧ n ∈ g.inputs) ∨
      ((∀ g ∈ gs, n ∉ g.inputs) ∧ ∃ g ∈ gs, g.index = i ∧ g.inputs = [] ∧ (c!"all" ∈ names ∨ g.name ∈ names)) :=
  ⟨inputGroups_lt gs n names, mem_inputGroups gs n names⟩

/-- C44. When data are added to an existing input, its groups are the former ones and those the call selects, each once. (In
which order is up to Python's sets: see `C44_order_after_second_call`.) -/
theorem C44_more_data_partial (E : Engine) (hE : E.SetOrderOk) (o : TTPObj) (data : Val) (n tn : Str) (names : List Str)
    (i : Nat) (t : Tpl) (ht : o.templates[i]? = some t) (hs : tn = t.name ∨ tn = c!"_all_")
    (hd : loadFiles E.world data ≠ []) (old : List Nat) (ho : t.groupsFor n = some old) :
    ∃ t' l, (addInput E o data n tn names).templates[i]? = some t' ∧ t'.groupsFor n = some l ∧ l.Nodup ∧
      ∀ x, x ∈ l ↔ x ∈ old ∨ x ∈ inputGroups t.groups n (if names = [] then [c!"all"] else names) := by
  have h := addInput_at ⟨E, data, n, tn, names⟩ o i t ht
  dsimp only at h
  rw [if_pos ⟨hd, hs⟩] at h
  refine ⟨_, E.setOrder (old ++ inputGroups t.groups n (orAll names)), h, ?_, ?_, ?_⟩
  · rw [updateInput_groupsFor, if_pos rfl, ho]
  · exact (hE _).1
  · intro x
    rw [(hE _).2, List.mem_append]
    rfl

/-- C44. Without more data in an existing input, the groups of a template that an input runs are in template order (group
`i` of the template has index `i`). -/
theorem C44_groups_run (t : Tpl) (hidx : ∀ (i : Nat) (g : TopGroup), t.groups[i]? = some g → g.index = i) (n : Str)
    (names : List Str) :
    ∃ gs, groupsOf t (inputGroups t.groups n names) = .ok gs ∧
      gs = (t.groups.filter (fun g => if t.groups.any (fun g => decide (n ∈ g.inputs)) then decide (n ∈ g.inputs)
        else decide (g.inputs = []) && (decide (c!"all" ∈ names) || decide (g.name ∈ names)))).map (·.grp) := by
  have key : ∀ (l : List Nat) (p : TopGroup → Bool), l.Pairwise (· < ·) → (∀ x, x ∈ l ↔ ∃ g ∈ t.groups, g.index = x ∧ p g = true) →
      groupsOf t l = .ok ((t.groups.filter p).map (·.grp)) := by
    intro l p hl hx
    have ok : ∀ l : List Nat, (∀ x ∈ l, x < t.groups.length) → groupsOf t l = .ok (l.filterMap (fun i => (t.groups[i]?).map (·.grp))) := by
      intro l
      induction l with
      | nil => intro _; rfl
      | cons a l ih =>
        intro h
        have := h a (by simp)
        simp only [groupsOf, List.getElem?_eq_getElem this, ih (fun x hx => h x (by simp [hx])), ok_bind, pure_ok,
          List.filterMap_cons, Option.map_some]
    have hlt : ∀ x ∈ l, x < t.groups.length := by
      intro x hx2
      obtain ⟨g, hg, h1, _⟩ := (hx x).1 hx2
      obtain ⟨j, hj⟩ := List.getElem?_of_mem hg
      have := hidx j g hj
      rw [h1] at this
      subst this
      exact (List.getElem?_eq_some_iff.1 hj).1
    rw [ok l hlt]
    congr 1
    have hl2 : l = (t.groups.filter p).map (·.index) := by
      have hsort : ((t.groups.filter p).map (·.index)).Pairwise (· < ·) := by
        have hall : (t.groups.map (·.index)).Pairwise (· < ·) := by
          have e : t.groups.map (·.index) = List.range t.groups.length := by
            apply List.ext_getElem?
            intro i
            by_cases hi : i < t.groups.length
            · simp only [List.getElem?_map, List.getElem?_eq_getElem hi, Option.map_some,
                List.getElem?_range hi, hidx i _ (List.getElem?_eq_getElem hi)]
            · rw [List.getElem?_eq_none (by simpa using hi), List.getElem?_eq_none (by simpa using hi)]
          rw [e]; exact List.pairwise_lt_range
        exact hall.sublist ((List.filter_sublist).map _)
      have hmem : ∀ x, x ∈ l ↔ x ∈ (t.groups.filter p).map (·.index) := by
        intro x
        rw [hx x]
        simp only [List.mem_map, List.mem_filter]
        constructor
        · rintro ⟨g, a, b, c⟩; exact ⟨g, ⟨a, c⟩, b⟩
        · rintro ⟨g, ⟨a, c⟩, b⟩; exact ⟨g, a, b, c⟩
      exact List.Perm.eq_of_pairwise (by intro a b _ _ h1 h2; omega) hl hsort
        ((List.perm_ext_iff_of_nodup (hl.imp (by intro a b h; omega)) (hsort.imp (by intro a b h; omega))).2 hmem)
    rw [hl2, List.filterMap_map]
    have : ∀ q : List TopGroup, (∀ g ∈ q, g ∈ t.groups) →
        q.filterMap ((fun i => (t.groups[i]?).map (·.grp)) ∘ (·.index)) = q.map (·.grp) := by
      intro q
      induction q with
      | nil => intro _; rfl
      | cons g q ih =>
        intro hq
        obtain ⟨j, hj⟩ := List.getElem?_of_mem (hq g (by simp))
        have e : t.groups[g.index]? = some g := by rw [hidx j g hj]; exact hj
        simp only [List.filterMap_cons, Function.comp, e, Option.map_some, List.map_cons]
        congr 1
        exact ih (fun x hx => hq x (by simp [hx]))
    exact this _ (fun g hg => (List.mem_filter.1 hg).1)
  refine ⟨_, key _ (fun g => if t.groups.any (fun g => decide (n ∈ g.inputs)) then decide (n ∈ g.inputs)
        else decide (g.inputs = []) && (decide (c!"all" ∈ names) || decide (g.name ∈ names))) (inputGroups_lt _ _ _) ?_, rfl⟩
  intro x
  rw [mem_inputGroups]
  by_cases h : t.groups.any (fun g => decide (n ∈ g.inputs)) = true
  · have h' : ¬ ∀ g ∈ t.groups, n ∉ g.inputs := by
      intro hh; simp only [List.any_eq_true, decide_eq_true_eq] at h
      obtain ⟨g, a, b⟩ := h; exact hh g a b
    simp [h, h']
  · have h' : ∀ g ∈ t.groups, n ∉ g.inputs := by
      intro g a b; apply h; simp only [List.any_eq_true, decide_eq_true_eq]; exact ⟨g, a, b⟩
    simp only [h]
    constructor
    · rintro (⟨g, a, b, c⟩ | ⟨_, g, a, b, c, d⟩)
      · exact absurd c (h' g a)
      · exact ⟨g, a, b, by simp [c, d]⟩
    · rintro ⟨g, a, b, c⟩
      simp at c
      exact Or.inr ⟨h', g, a, b, c.1, c.2⟩

example : inputGroups Ex.tpl0.groups c!"in" [c!"all"] = [0] ∧ inputGroups Ex.tpl0.groups c!"in2" [c!"all"] = [1] ∧
    inputGroups Ex.tpl0.groups c!"in" [c!"other"] = [] := by decide +kernel

/-- C44 fails in part: the order of the groups after a second `add_input` is that of Python's sets. For indexes 8 and 1 in a
set of the smallest table (8 slots) it is 8, 1: the table is read in the order of the remainders by 8. -/
theorem C44_order_after_second_call : ∃ (E : Engine) (t : Tpl) (ds : List Datum), E.SetOrderOk ∧
    t.groupsFor c!"in" = some [1, 8] ∧ (updateInput E t ds c!"in" [c!"all"]).groupsFor c!"in" = some [8, 1] := by
  refine ⟨{ Ex.eng0 with setOrder := fun l => (l.eraseDups.filter (fun i => i % 8 == 0)) ++ (l.eraseDups.filter (fun i => !(i % 8 == 0))) },
    { Ex.tpl0 with groups := [], inputs := [(c!"in", ⟨[], [1, 8], [], .dict []⟩)] }, [⟨.text, .str c!"x"⟩], ?_, rfl, by decide +kernel⟩
  intro l
  refine ⟨?_, ?_⟩
  · rw [List.nodup_append]
    refine ⟨(eraseDups_nodupN l).filter _, (eraseDups_nodupN l).filter _, ?_⟩
    intro a ha b hb e
    subst e
    rw [List.mem_filter] at ha hb
    simp_all
  · intro x
    rw [List.mem_append, List.mem_filter, List.mem_filter, List.mem_eraseDups]
    by_cases h : x % 8 = 0 <;> simp [h]

/-! ## C47 -/

/-- C47. The stored entry of a data item: the dictionary itself without anonymous group; else the list of anonymous records,
followed by the dictionary of the other results unless it is empty. -/
theorem C47_anonymous (d : Dict Key Val) (hw : Dict.WF d) :
    (Dict.get? d (.s c!"_anonymous_") = none → formDatum (.dict d) = .ok (.dict d)) ∧
    (∀ xs, Dict.get? d (.s c!"_anonymous_") = some (.list xs) →
      ∃ rest, (∀ k, Dict.get? rest k = if k = .s c!"_anonymous_" then none else Dict.get? d k) ∧ Dict.WF rest ∧
        formDatum (.dict d) = .ok (.list (if rest = [] then xs else xs ++ [.dict rest]))) := by
  refine ⟨?_, ?_⟩
  · intro h
    unfold formDatum anon
    simp only [h]
    rfl
  · intro xs h
    refine ⟨Dict.erase d (.s c!"_anonymous_"), ?_, Dict.WF_erase _ _ hw, ?_⟩
    · intro k
      rw [Dict.get?_erase _ _ hw]
      by_cases e : k = .s c!"_anonymous_"
      · simp [e]
      · have e' : Key.s c!"_anonymous_" ≠ k := fun h => e h.symm
        simp [e, e']
    · unfold formDatum anon
      simp only [h]
      split <;> simp_all

/-- C47. If the anonymous group is all there is, the entry is its value, whatever it is. -/
theorem C47_anonymous_only (v : Val) : formDatum (.dict [(.s c!"_anonymous_", v)]) = .ok v := rfl

/-- C47 fails in part: the value of the anonymous group need not be a list. A template without tags gets a group named
`_anonymous_` (without asterisk), one record is then stored as a dictionary; together with other results this raises. -/
theorem C47_single_record_not_a_list :
    formDatum (.dict [(.s c!"_anonymous_", .dict [(.s c!"a", .int 1)])]) = .ok (.dict [(.s c!"a", .int 1)]) ∧
    formDatum (.dict [(.s c!"_anonymous_", .dict [(.s c!"a", .int 1)]), (.s c!"b", .int 2)]) = .error .attributeError :=
  ⟨rfl, rfl⟩

example : formDatum (.dict [(.s c!"_anonymous_", .list [.int 1]), (.s c!"a", .int 2)]) = .ok (.list [.int 1, .dict [(.s c!"a", .int 2)]]) := by
  decide +kernel

/-! ## C62 -/

theorem runOutFns_iff (E : Engine) (fs : List FnCall) (u v : Val) : runOutFns E fs u = .ok v ↔ Through E fs u v := by
  induction fs generalizing u with
  | nil =>
    simp only [runOutFns, pure_ok, Except.ok.injEq]
    constructor
    · rintro rfl; exact .nil _
    · intro h; cases h; rfl
  | cons f fs ih =>
    simp only [runOutFns, bind_ok_iff]
    constructor
    · rintro ⟨a, h1, h2⟩; exact .cons h1 ((ih _).1 h2)
    · intro h; cases h with
      | cons h1 h2 => exact ⟨_, h1, (ih _).2 h2⟩

theorem runReturners_iff (E : Engine) (v : Val) (rs : List Str) (f f' : Bool) :
    runReturners E v rs f = .ok f' ↔ Returned E rs v ∧ f' = (f || decide (c!"self" ∈ rs)) := by
  induction rs generalizing f with
  | nil =>
    simp only [runReturners, pure_ok, Except.ok.injEq, Returned]
    simp
    exact eq_comm
  | cons r rs ih =>
    simp only [runReturners]
    split
    · rename_i h
      rw [ih]
      simp only [Returned]
      constructor
      · rintro ⟨a, b⟩
        refine ⟨?_, by simp [b, h]⟩
        intro q hq hq2
        rcases List.mem_cons.1 hq with rfl | hq
        · exact absurd h hq2
        · exact a q hq hq2
      · rintro ⟨a, b⟩
        exact ⟨fun q hq => a q (by simp [hq]), by simp [b, h]⟩
    · rename_i h
      have h' : c!"self" ≠ r := fun e => h e.symm
      split
      · rename_i fn hf
        rw [bind_ok_iff]
        constructor
        · rintro ⟨u, h1, h2⟩
          obtain ⟨a, b⟩ := (ih _).1 h2
          refine ⟨?_, by simp only [b, List.mem_cons, h', false_or]⟩
          intro q hq hq2 fn2 hf2
          rcases List.mem_cons.1 hq with rfl | hq
          · rw [hf] at hf2; simp only [Option.some.injEq] at hf2; subst hf2; exact h1
          · exact a q hq hq2 fn2 hf2
        · rintro ⟨a, b⟩
          refine ⟨(), a r (by simp) h fn hf, (ih _).2 ⟨fun q hq => a q (by simp [hq]), ?_⟩⟩
          rw [b]; simp only [List.mem_cons, h', false_or]
      · rename_i hf
        rw [ih]
        constructor
        · rintro ⟨a, b⟩
          refine ⟨?_, by simp only [b, List.mem_cons, h', false_or]⟩
          intro q hq hq2 fn2 hf2
          rcases List.mem_cons.1 hq with rfl | hq
          · rw [hf] at hf2; cases hf2
          · exact a q hq hq2 fn2 hf2
        · rintro ⟨a, b⟩
          refine ⟨fun q hq => a q (by simp [hq]), ?_⟩
          rw [b]; simp only [List.mem_cons, h', false_or]

theorem condVar_wf (vars : Dict Str Val) (hv : ∀ n v, Dict.get? vars n = some v → DeepWF v) (n : Str) : DeepWF (condVar vars n) := by
  unfold condVar
  cases h : Dict.get? vars n with
  | none => trivial
  | some v => exact hv n v h

/-- the condition -/
theorem condHolds_iff (vars : Dict Str Val) (hv : ∀ n v, Dict.get? vars n = some v → DeepWF v) (c : Option (List Val)) (hc : CondOk c) :
    (CondMet vars c → condHolds vars c = .ok true) ∧ (¬ CondMet vars c → condHolds vars c = .ok false) := by
  rcases hc with rfl | rfl | ⟨n, v, rfl, hw⟩
  · exact ⟨fun _ => rfl, fun h => absurd (Or.inl rfl) h⟩
  · exact ⟨fun _ => rfl, fun h => absurd (Or.inr (Or.inl rfl)) h⟩
  · have e : CondMet vars (some [.str n, v]) ↔ MatchFn.pyEq (condVar vars n) v = true := by
      rw [pyEq_iff _ _ (condVar_wf vars hv n) hw]
      unfold CondMet
      constructor
      · rintro (h | h | ⟨n', v', h, hs⟩)
        · cases h
        · cases h
        · cases h; exact hs
      · intro h; exact Or.inr (Or.inr ⟨n, v, rfl, h⟩)
    have e2 : condHolds vars (some [.str n, v]) = .ok (MatchFn.pyEq (condVar vars n) v) := rfl
    rw [e, e2]
    constructor
    · intro h; rw [h]
    · intro h; cases hh : MatchFn.pyEq (condVar vars n) v with
      | true => exact absurd hh h
      | false => rfl

/-- C62. An output whose condition does not hold hands on the data it was given. -/
theorem C62_condition_fails (E : Engine) (vars : Dict Str Val) (hw : ∀ n v, Dict.get? vars n = some v → DeepWF v) (o : Outputter) (data : Val)
    (ho : CondOk o.condition) (hc : ¬ CondMet vars o.condition) :
    runOutput E vars o data = .ok (data, o) := by
  unfold runOutput
  rw [(condHolds_iff vars hw _ ho).2 hc]
  rfl

/-- a condition that does not hold: there is no such variable -/
example : CondOk (some [.str c!"a", .int 1]) ∧ ¬ CondMet [] (some [.str c!"a", .int 1]) ∧ CondMet [(c!"a", .bool true)] (some [.str c!"a", .int 1]) := by
  refine ⟨Or.inr (Or.inr ⟨_, _, rfl, trivial⟩), ?_, Or.inr (Or.inr ⟨_, _, rfl, .true_one⟩)⟩
  rintro (h | h | ⟨n, v, h, hs⟩)
  · cases h
  · cases h
  · cases h; cases hs

/-- C62. Otherwise the data go through the functions in order, then the formatter, then to the returners; the output hands
on this result exactly if it uses (or used before) the `self` returner, else the data it was given. -/
theorem C62_output (E : Engine) (vars : Dict Str Val) (hw : ∀ n v, Dict.get? vars n = some v → DeepWF v) (o : Outputter) (data w : Val)
    (o' : Outputter) (ho : CondOk o.condition) (hc : CondMet vars o.condition) :
    runOutput E vars o data = .ok (w, o') ↔
      ∃ r1 r2, Through E o.funcs data r1 ∧ Formatted E o.format r1 r2 ∧ Returned E o.returners r2 ∧
        o' = { o with selfFlag := o.selfFlag || decide (c!"self" ∈ o.returners) } ∧
        w = if o.selfFlag || decide (c!"self" ∈ o.returners) then r2 else data := by
  have hcond : condHolds vars o.condition = .ok true := (condHolds_iff vars hw _ ho).1 hc
  unfold runOutput
  rw [hcond]
  simp only [ok_bind, if_true]
  rw [bind_ok_iff]
  have hf : ∀ r1 r2, formatWith E o.format r1 = .ok r2 ↔ Formatted E o.format r1 r2 := by
    intro r1 r2
    unfold Formatted formatWith
    cases e : E.formatters o.format with
    | none => simp; exact eq_comm
    | some f => simp
  constructor
  · rintro ⟨r1, h1, h2⟩
    rw [bind_ok_iff] at h2
    obtain ⟨r2, h2, h3⟩ := h2
    rw [bind_ok_iff] at h3
    obtain ⟨fl, h3, h4⟩ := h3
    simp only [pure_ok, Except.ok.injEq, Prod.mk.injEq] at h4
    obtain ⟨a, b⟩ := (runReturners_iff E r2 _ _ _).1 h3
    refine ⟨r1, r2, (runOutFns_iff E _ _ _).1 h1, (hf r1 r2).1 h2, a, ?_, ?_⟩
    · rw [← h4.2, b]
    · rw [← h4.1, b]
  · rintro ⟨r1, r2, h1, h2, h3, h4, h5⟩
    refine ⟨r1, (runOutFns_iff E _ _ _).2 h1, ?_⟩
    rw [bind_ok_iff]
    refine ⟨r2, (hf r1 r2).2 h2, ?_⟩
    rw [bind_ok_iff]
    refine ⟨_, (runReturners_iff E r2 _ _ _).2 ⟨h3, rfl⟩, ?_⟩
    simp only [pure_ok, h4, h5]

/-- an output with the self returner and one without -/
example : runOutput Ex.eng0 [] ⟨none, [], c!"wrap", [c!"self"], none, false⟩ (.int 1) =
      .ok (.list [.int 1], ⟨none, [], c!"wrap", [c!"self"], none, true⟩) ∧
    runOutput Ex.eng0 [] ⟨none, [], c!"wrap", [c!"terminal"], none, false⟩ (.int 1) =
      .ok (.int 1, ⟨none, [], c!"wrap", [c!"terminal"], none, false⟩) := ⟨rfl, rfl⟩

theorem runOutput_iff (E : Engine) (vars : Dict Str Val) (hw : ∀ n v, Dict.get? vars n = some v → DeepWF v) (o : Outputter) (data w : Val)
    (o' : Outputter) (ho : CondOk o.condition) : runOutput E vars o data = .ok (w, o') ↔ OneOutput E vars o data w o' := by
  by_cases hc : CondMet vars o.condition
  · rw [C62_output E vars hw o data w o' ho hc]
    constructor
    · rintro ⟨r1, r2, h1, h2, h3, rfl, rfl⟩; exact .run hc h1 h2 h3
    · intro h
      cases h with
      | skip h => exact absurd hc h
      | run _ h1 h2 h3 => exact ⟨_, _, h1, h2, h3, rfl, rfl⟩
  · rw [C62_condition_fails E vars hw o data ho hc]
    simp only [Except.ok.injEq, Prod.mk.injEq]
    constructor
    · rintro ⟨rfl, rfl⟩; exact .skip hc
    · intro h
      cases h with
      | skip _ => exact ⟨rfl, rfl⟩
      | run h _ _ _ => exact absurd h hc

theorem runOutputsAux_iff (E : Engine) (vars : Dict Str Val) (hw : ∀ n v, Dict.get? vars n = some v → DeepWF v) (os os' : List Outputter)
    (ho : ∀ o ∈ os, CondOk o.condition) (data w : Val) :
    runOutputsAux E vars os data = .ok (w, os') ↔ OutputChain E vars os data w os' := by
  induction os generalizing data os' with
  | nil =>
    simp only [runOutputsAux, pure_ok, Except.ok.injEq, Prod.mk.injEq]
    constructor
    · rintro ⟨rfl, rfl⟩; exact .nil _
    · intro h; cases h; exact ⟨rfl, rfl⟩
  | cons o os ih =>
    simp only [runOutputsAux, bind_ok_iff]
    constructor
    · rintro ⟨⟨v, o1⟩, h1, ⟨w', os1⟩, h2, h3⟩
      simp only [pure_ok, Except.ok.injEq, Prod.mk.injEq] at h3
      obtain ⟨rfl, rfl⟩ := h3
      exact .cons ((runOutput_iff E vars hw o data v o1 (ho o (by simp))).1 h1) ((ih os1 (fun o h => ho o (by simp [h])) v).1 h2)
    · intro h
      cases h with
      | cons h1 h2 =>
        exact ⟨_, (runOutput_iff E vars hw o data _ _ (ho o (by simp))).2 h1, _, (ih _ (fun o h => ho o (by simp [h])) _).2 h2, rfl⟩

/-- C115. After parsing, the results of each template go through the outputs of the template one after the other: each output gets what the one
before handed on, and what the last one hands on is the result of the template. The outputs of one template do not touch other templates. -/
theorem C115_outputs_in_order (E : Engine) (o o' : TTPObj) (ts : List Tpl) (g : Dict Str Val)
    (hp : parseAllOne E o.templates o.gvars = .ok (ts, g))
    (hw : ∀ t ∈ ts, ∀ n v, Dict.get? t.vars n = some v → DeepWF v) (hc : ∀ t ∈ ts, ∀ q ∈ t.outputs, CondOk q.condition) :
    parseOne E o = .ok o' ↔
      o'.vars = o.vars ∧ o'.lookups = o.lookups ∧ o'.gvars = g ∧
      All2 (fun t t' => ∃ v os, OutputChain E t.vars t.outputs t.results v os ∧ t' = { t with results := v, outputs := os }) ts o'.templates := by
  have key : ∀ (ts ts' : List Tpl), (∀ t ∈ ts, ∀ n v, Dict.get? t.vars n = some v → DeepWF v) → (∀ t ∈ ts, ∀ q ∈ t.outputs, CondOk q.condition) →
      (runOutputsAll E ts = .ok ts' ↔
        All2 (fun t t' => ∃ v os, OutputChain E t.vars t.outputs t.results v os ∧ t' = { t with results := v, outputs := os }) ts ts') := by
    intro ts
    induction ts with
    | nil =>
      intro ts' _ _
      simp only [runOutputsAll, pure_ok, Except.ok.injEq]
      constructor
      · rintro rfl; exact .nil
      · intro h; cases h; rfl
    | cons t ts ih =>
      intro ts' hw hc
      have ih := fun ts' => ih ts' (fun t h => hw t (by simp [h])) (fun t h => hc t (by simp [h]))
      have h1 := runOutputsAux_iff E t.vars (hw t (by simp)) t.outputs
      simp only [runOutputsAll, bind_ok_iff, runOutputs]
      constructor
      · rintro ⟨t1, ⟨⟨v, os⟩, a, b⟩, ts1, c, d⟩
        simp only [pure_ok, Except.ok.injEq] at b d
        subst b d
        exact .cons ⟨v, os, (h1 os (hc t (by simp)) _ v).1 a, rfl⟩ ((ih ts1).1 c)
      · intro h
        cases h with
        | cons h2 h3 =>
          obtain ⟨v, os, h4, rfl⟩ := h2
          exact ⟨_, ⟨(v, os), (h1 os (hc t (by simp)) _ v).2 h4, rfl⟩, _, (ih _).2 h3, rfl⟩
  unfold parseOne
  rw [hp]
  simp only [ok_bind, bind_ok_iff]
  constructor
  · rintro ⟨ts', a, b⟩
    simp only [pure_ok, Except.ok.injEq] at b
    subst b
    exact ⟨rfl, rfl, rfl, (key ts ts' hw hc).1 a⟩
  · rintro ⟨a, b, c, d⟩
    refine ⟨o'.templates, (key ts _ hw hc).2 d, ?_⟩
    obtain ⟨t1, v1, l1, g1⟩ := o'
    simp only at a b c
    subst a b c
    rfl

/-- two outputs: the second gets the result of the first -/
example : OutputChain Ex.eng0 [] [⟨none, [], c!"wrap", [c!"self"], none, false⟩, ⟨none, [], c!"wrap", [c!"self"], none, false⟩] (.int 1)
    (.list [.list [.int 1]]) [⟨none, [], c!"wrap", [c!"self"], none, true⟩, ⟨none, [], c!"wrap", [c!"self"], none, true⟩] := by
  have h : runOutputsAux Ex.eng0 [] [⟨none, [], c!"wrap", [c!"self"], none, false⟩, ⟨none, [], c!"wrap", [c!"self"], none, false⟩] (.int 1) =
    .ok (.list [.list [.int 1]], [⟨none, [], c!"wrap", [c!"self"], none, true⟩, ⟨none, [], c!"wrap", [c!"self"], none, true⟩]) := rfl
  refine (runOutputsAux_iff _ _ (by intro n v h; cases h) _ _ ?_ _ _).1 h
  intro o ho
  simp only [List.mem_cons, List.not_mem_nil, or_false, or_self] at ho
  rw [ho]; exact Or.inl rfl

/-! ## C116 -/

/-- C116. Templates keep the order in which they were added: a new one changes nothing in those before it and comes after them, in the results
too. -/
theorem C116_templates_in_order (o : TTPObj) (src : Dict Str Val → List Tpl) :
    (addTemplate o src).templates = o.templates ++ src o.vars ∧
    resultList (addTemplate o src) [] = resultList o [] ++ (src o.vars).map (·.results) ∧
    (addTemplate o src).vars = o.vars ∧ (addTemplate o src).lookups = o.lookups := by
  refine ⟨rfl, ?_, rfl, rfl⟩
  simp [resultList, pick, addTemplate]

/-- C116. A lookup table reaches every template loaded so far, under its name; other tables, and everything else of the templates, stay. -/
theorem C116_add_lookup (o : TTPObj) (name : Str) (tbl : Val) :
    (∀ n, Dict.get? (addLookup o name tbl).lookups n = if n = name then some tbl else Dict.get? o.lookups n) ∧
    All2 (fun t t' => (∀ n, Dict.get? t'.lookups n = if n = name then some tbl else Dict.get? t.lookups n) ∧ t' = { t with lookups := t'.lookups })
      o.templates (addLookup o name tbl).templates := by
  have h : ∀ (d : Dict Str Val) n, Dict.get? (Dict.set d name tbl) n = if n = name then some tbl else Dict.get? d n := by
    intro d n
    rw [Dict.get?_set]
    simp only [eq_comm]
  refine ⟨fun n => h o.lookups n, ?_⟩
  show All2 _ o.templates (o.templates.map _)
  generalize o.templates = ts
  induction ts with
  | nil => exact .nil
  | cons t ts ih => exact .cons ⟨fun n => h t.lookups n, rfl⟩ ih

/-- C116, what does not hold: a template that is added after the lookup table does not get the table. -/
theorem C116_lookup_before_template (o : TTPObj) (name : Str) (tbl : Val) (t : Tpl) (ht : t.lookups = []) :
    Dict.get? (addTemplate (addLookup o name tbl) (fun _ => [t])).lookups name = some tbl ∧
    t ∈ (addTemplate (addLookup o name tbl) (fun _ => [t])).templates ∧ Dict.get? t.lookups name = none := by
  refine ⟨Dict.get?_set_self _ _ _, by simp [addTemplate], by rw [ht]; rfl⟩

/-- C116. `get_input_load` tells, for every template and every input of it, the parameters of the input. (Of templates with the same name, the
last one.) -/
theorem C116_input_load (o : TTPObj) (pre post : List Tpl) (t : Tpl) (ho : o.templates = pre ++ t :: post)
    (hl : ∀ u ∈ post, u.name ≠ t.name) (hi : (t.inputs.map Prod.fst).Nodup) :
    ∃ d, Dict.get? (getInputLoad o) t.name = some d ∧ ∀ i, Dict.get? d i = (Dict.get? t.inputs i).map (·.parameters) := by
  let f : Dict Str (Dict Str Val) → Tpl → Dict Str (Dict Str Val) :=
    fun ret t => Dict.set ret t.name (Dict.update [] (t.inputs.map (fun i => (i.1, i.2.parameters))))
  have hp : ∀ (post : List Tpl) acc, (∀ u ∈ post, u.name ≠ t.name) → Dict.get? (post.foldl f acc) t.name = Dict.get? acc t.name := by
    intro post
    induction post with
    | nil => intro acc _; rfl
    | cons u post ih =>
      intro acc h
      rw [List.foldl_cons, ih _ (fun v hv => h v (by simp [hv]))]
      exact Dict.get?_set_ne _ _ (fun e => h u (by simp) e)
  refine ⟨Dict.update [] (t.inputs.map (fun i => (i.1, i.2.parameters))), ?_, ?_⟩
  · show Dict.get? (o.templates.foldl f []) t.name = _
    rw [ho, List.foldl_append, List.foldl_cons, hp post _ hl]
    exact Dict.get?_set_self _ _ _
  · intro i
    have hm : ∀ l : Dict Str TInput, Dict.get? (l.map (fun i => (i.1, i.2.parameters))) i = (Dict.get? l i).map (·.parameters) := by
      intro l
      induction l with
      | nil => rfl
      | cons p l ih =>
        obtain ⟨k, v⟩ := p
        rw [List.map_cons, Dict.get?_cons, Dict.get?_cons]
        split
        · rfl
        · exact ih
    rw [Dict.get?_update]
    · rw [hm]
      cases Dict.get? t.inputs i <;> rfl
    · unfold Dict.WF Dict.keys
      rw [List.map_map]
      exact hi

/-- an input with parameters -/
example : getInputLoad ⟨[⟨c!"t", [], [(c!"a", ⟨[], [], [], .int 1⟩), (c!"b", ⟨[], [], [], .int 2⟩)], [], [], [], [], [], [], .none⟩], [], [], []⟩ =
    [(c!"t", [(c!"a", .int 1), (c!"b", .int 2)])] := rfl

end Props
