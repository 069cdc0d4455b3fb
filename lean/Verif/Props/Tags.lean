import Verif.Proofs.Tags
import Verif.Props.Object
/-!
# C88-C92: the tags of a template

`C : TplCtx` stands for the file system, the loaders of formats and the functions there are.
-/

set_option synthInstance.maxSize 4000

namespace Props
open Py Spec TTP

namespace Ex

/-- context: `load="python"` gives the variable `a` with the text as value -/
def tctx : TplCtx :=
  ⟨⟨[], fun _ => none, fun _ => none, fun _ => none, fun _ => false⟩, eng0,
   fun n => if n = c!"python" then some (fun t _ => .ok (asVal [(c!"a", .str t)])) else none,
   fun n => decide (n = c!"gethostname"), fun _ => false, fun _ => false, id⟩
/-- an object without templates -/
def objE : TTPObj := ⟨[], [(c!"a", .int 1), (c!"b", .int 2)], [], []⟩
/-- `<vars>x</vars>` -/
def tagV (s : Str) : Xml := .mk c!"vars" [] (some s) [] none
/-- `<VARS name="p">x</VARS>` -/
def tagVn (p s : Str) : Xml := .mk c!"VARS" [(c!"name", p)] (some s) [] none
/-- `<input name="in" load="text">` -/
def tagI (n s : Str) : Xml := .mk c!"input" [(c!"name", n), (c!"load", c!"text")] (some s) [] none
/-- `<group name="g">`, a group without lines -/
def tagG (n : Str) : Xml := .mk c!"group" [(c!"name", n)] (some c!"\n") [] none
/-- `<group name="g" input="in">` -/
def tagGi (n i : Str) : Xml := .mk c!"group" [(c!"name", n), (c!"input", i)] (some c!"\n") [] none
/-- `<template>` -/
def root (cs : List Xml) : Xml := .mk c!"template" [] none cs none
/-- `<template name="n">` -/
def tagT (n : Str) (cs : List Xml) : Xml := .mk c!"template" [(c!"name", n)] none cs none
/-- names and names of groups of the templates -/
def tplNames (r : PyM TTPObj) : Option (List (Str × List Str)) :=
  match r with
  | .ok o => some (o.templates.map (fun t => (t.name, t.groups.map (·.name))))
  | .error _ => none

/-- something of each template after loading -/
def viewT {α : Type} (f : Tpl → α) (r : PyM TTPObj) : Option (List α) :=
  match r with
  | .ok o => some (o.templates.map f)
  | .error _ => none

end Ex

/-! ## C88 -/

/-- C88. Only the order of tags of the same kind matters, and tags of unknown kinds, `doc` and text between the tags do not matter at
all: two templates with the same attributes and the same tags of each kind load alike. -/
theorem C88_order_of_tags (C : TplCtx) (o : TTPObj) (bp name : Str) (filters : List Str) (tag tag' : Str) (at_ : Dict Str Str)
    (text text' tail tail' : Option Str) (cs cs' : List Xml) (hd : DocsOk cs ↔ DocsOk cs')
    (h : ∀ names ∈ tagNames, tagged names cs = tagged names cs') :
    addTemplateXml C o bp name filters (.mk tag at_ text cs tail) = addTemplateXml C o bp name filters (.mk tag' at_ text' cs' tail') := by
  have e : tagsOf cs = tagsOf cs' := by
    unfold tagsOf
    rw [h _ (by simp [tagNames]), h [c!"g", c!"grp", c!"group"] (by simp [tagNames]), h [c!"o", c!"out", c!"output"] (by simp [tagNames]),
      h [c!"i", c!"in", c!"input"] (by simp [tagNames]), h [c!"lookup"] (by simp [tagNames]), h [c!"template"] (by simp [tagNames])]
  unfold addTemplateXml
  rw [loadTpl_eq, loadTpl_eq, e, h [c!"template"] (by simp [tagNames])]
  by_cases hc : DocsOk cs
  · rw [if_pos hc, if_pos (hd.1 hc)]
  · rw [if_neg hc, if_neg (fun h => hc (hd.2 h))]

/-- the hypotheses are met: inputs before groups, an unknown tag -/
example : ∀ names ∈ tagNames, tagged names [Ex.tagI c!"in" c!"x", Ex.tagG c!"g", Ex.tagV c!"y", Ex.tagG c!"h"] =
    tagged names [Ex.tagV c!"y", Ex.tagG c!"g", Ex.tagG c!"h", .mk c!"other" [] none [] none, Ex.tagI c!"in" c!"x"] := by
  intro names hn
  simp only [tagNames, List.mem_cons, List.not_mem_nil, or_false] at hn
  rcases hn with e | e | e | e | e | e <;> subst e <;> rfl

/-! ## C89 -/

theorem gives_WF (C : TplCtx) (xs : List Xml) (ds : List (Dict Str Val)) (h : All2 (GivesVars C) xs ds) : ∀ d ∈ ds, Dict.WF d := by
  induction h with
  | nil => intro d hd; simp at hd
  | cons a _ ih =>
    intro d hd
    rcases List.mem_cons.1 hd with e | hd
    · subst e; exact GivesVars_WF C _ _ a
    · exact ih d hd

/-- C89. Variables of a template without templates inside: a variable has the value of the last `vars` tag that sets it, else the one it
has in the parser object; but if that is the name of a variable function, it is a variable with this function. -/
theorem C89_variables (C : TplCtx) (o o' : TTPObj) (bp name : Str) (x : Xml) (hno : tagged [c!"template"] x.children = [])
    (how : Dict.WF o.vars) (ds : List (Dict Str Val)) (hds : All2 (GivesVars C) (tagged [c!"v", c!"vars", c!"variables"] x.children) ds)
    (h : addTemplateXml C o bp name [] x = .ok o') :
    ∃ t, o' = { o with templates := o.templates ++ [t] } ∧
      (∀ k v, Dict.get? t.vars k = some v ↔ (lastSet ds k).or (Dict.get? o.vars k) = some v ∧ ¬ Getter C v) ∧
      (∀ k f, Dict.get? t.varFns k = some f ↔ (lastSet ds k).or (Dict.get? o.vars k) = some (.str f) ∧ C.isVarFn f = true) := by
  obtain ⟨r, h1, h2⟩ := addTemplateXml_plain C o o' bp name x hno h
  obtain ⟨tv, outs, ls, tops, ins, e1, e2, e3, e4, e5, e6⟩ := loadRest_ok C _ _ _ _ h1
  have hv := parseVarsAll_gives C _ _ hds ⟨o.vars, []⟩
  have e1' : parseVarsAll C (tagged [c!"v", c!"vars", c!"variables"] x.children) ⟨o.vars, []⟩ = .ok tv := e1
  rw [hv] at e1'
  simp only [Except.ok.injEq] at e1'
  have hwd := gives_WF C _ _ hds
  have hs := getVarFunctions_spec C (ds.foldl Dict.update o.vars) (foldl_update_WF ds _ how)
  simp only [foldl_update_get ds hwd] at hs
  refine ⟨r.1, h2, ?_, ?_⟩ <;> rw [e6, ← e1']
  · exact hs.1
  · exact hs.2

/-- C89. The `vars` tags with `name="p"` put the names of their variables under the path `p` of results, in order. -/
theorem C89_variables_in_results (C : TplCtx) (o o' : TTPObj) (bp name : Str) (x : Xml) (hno : tagged [c!"template"] x.children = [])
    (ds : List (Dict Str Val)) (hds : All2 (GivesVars C) (tagged [c!"v", c!"vars", c!"variables"] x.children) ds)
    (h : addTemplateXml C o bp name [] x = .ok o') :
    ∃ t, o' = { o with templates := o.templates ++ [t] } ∧ ∀ p, (Dict.get? t.vtr p).getD [] =
      (((tagged [c!"v", c!"vars", c!"variables"] x.children).zip ds).filter (fun q => decide (Dict.get? q.1.attrib c!"name" = some p))).flatMap
        (fun q => Dict.keys q.2) := by
  obtain ⟨r, h1, h2⟩ := addTemplateXml_plain C o o' bp name x hno h
  obtain ⟨tv, outs, ls, tops, ins, e1, e2, e3, e4, e5, e6⟩ := loadRest_ok C _ _ _ _ h1
  have hv := parseVarsAll_gives C _ _ hds ⟨o.vars, []⟩
  have e1' : parseVarsAll C (tagged [c!"v", c!"vars", c!"variables"] x.children) ⟨o.vars, []⟩ = .ok tv := e1
  rw [hv] at e1'
  simp only [Except.ok.injEq] at e1'
  refine ⟨r.1, h2, ?_⟩
  intro p
  rw [e6, ← e1']
  dsimp only
  rw [foldl_addPath_get]
  simp

/-- the hypotheses are met -/
example : All2 (GivesVars Ex.tctx) (tagged [c!"v", c!"vars", c!"variables"] [Ex.tagV c!"x", Ex.tagG c!"g", Ex.tagVn c!"p" c!"gethostname"])
      [[(c!"a", .str c!"x")], [(c!"a", .str c!"gethostname")]] := by
  refine .cons ?_ (.cons ?_ .nil)
  · right; exact ⟨Or.inl (by decide), by unfold Dict.WF; decide, _, rfl, rfl⟩
  · right; exact ⟨Or.inl (by decide), by unfold Dict.WF; decide, _, rfl, rfl⟩
example : Ex.viewT (α := List (Str × Val) × List (Str × Str) × List (Str × List Str)) (fun t => ((t.vars : List (Str × Val)), (t.varFns : List (Str × Str)), (t.vtr : List (Str × List Str)))) (addTemplateXml Ex.tctx Ex.objE [] c!"t" [] (Ex.root [Ex.tagV c!"x", Ex.tagG c!"g", Ex.tagVn c!"p" c!"gethostname"])) = some [([(c!"b", .int 2)], [(c!"a", c!"gethostname")], [(c!"p", [c!"a"])])] := by decide +kernel

/-- C89 fails for a `vars` tag with a name and without text: the template cannot be loaded. -/
theorem C89_empty_named_tag_raises : ∃ (C : TplCtx) (o : TTPObj) (x : Xml), x.text = none ∧ Dict.get? x.attrib c!"name" ≠ none ∧
    (match addTemplateXml C o [] c!"t" [] (Ex.root [x]) with
    | .ok _ => none
    | .error e => some e) = some Err.attributeError :=
  ⟨Ex.tctx, Ex.objE, .mk c!"vars" [(c!"name", c!"p")] none [] none, rfl, by decide, by decide +kernel⟩

/-! ## C90 -/

/-- the templates inside are loaded as if they were added one by one -/
theorem loadTpls_each (C : TplCtx) (o : TTPObj) (base : Str) (n : Nat) (cs : List Xml) (ts : List TplNode)
    (hcs : ∀ c ∈ cs, lower c.tag = c!"template" ∧ c.children ≠ [] ∧ tagged [c!"template"] c.children = [])
    (h : loadTpls C o.vars base [] n cs = .ok ts) :
    ts.length = cs.length ∧ addEach C base n o cs = .ok { o with templates := o.templates ++ ts.map TplNode.tpl } := by
  induction cs generalizing n o ts with
  | nil =>
    rw [loadTpls] at h
    simp only [pure_ok, Except.ok.injEq] at h
    subst h
    simp [addEach]
  | cons x xs ih =>
    obtain ⟨h1, h2, h3⟩ := hcs x (by simp)
    have hk : tagKind x.tag = .template := (kind_template _).2 (by simp [h1])
    have hne : x.children.isEmpty = false := by cases hx : x.children with
      | nil => exact absurd hx h2
      | cons a b => rfl
    rw [loadTpls, if_neg (by simp [hk]), if_neg (by simp), hne] at h
    simp only [Bool.false_eq_true, if_false, bind_ok_iff] at h
    obtain ⟨t, a1, ts', a2, a3⟩ := h
    simp only [pure_ok, Except.ok.injEq] at a3
    subst a3
    have ht : t.templates = [] := by
      obtain ⟨tag, at_, text, cs, tail⟩ := x
      rw [loadTpl_eq, if_neg (by simp)] at a1
      simp only [Xml.children] at h3
      rw [h3, loadTpls_nil, ok_bind] at a1
      split at a1
      · rw [bind_ok_iff] at a1
        obtain ⟨r, _, a1⟩ := a1
        simp only [Except.ok.injEq] at a1
        subst a1; rfl
      · simp at a1
    have hadd : addTemplateXml C o base (natStr n) [] x = .ok { o with templates := o.templates ++ [t.tpl] } := by
      rw [addTemplateXml, a1, ok_bind, ht]
      simp
    rw [addEach, hadd, ok_bind]
    have := ih { o with templates := o.templates ++ [t.tpl] } (n + 1) ts' (fun c hc => hcs c (by simp [hc])) a2
    refine ⟨by simp [this.1], ?_⟩
    rw [this.2]
    simp

/-- C90. A template with templates inside (that have tags, and no templates inside of their own) is the same as these templates added
one by one, with the base path of the outer template, numbered from 0 if they have no name. -/
theorem C90_templates_inside_partial (C : TplCtx) (o o' : TTPObj) (bp name : Str) (x : Xml) (hw : Dict.WF x.attrib)
    (hne : tagged [c!"template"] x.children ≠ [])
    (hcs : ∀ c ∈ tagged [c!"template"] x.children, c.children ≠ [] ∧ tagged [c!"template"] c.children = [])
    (h : addTemplateXml C o bp name [] x = .ok o') :
    addEach C ((Dict.get? x.attrib c!"base_path").getD bp) 0 o (tagged [c!"template"] x.children) = .ok o' := by
  obtain ⟨tag, at_, text, cs, tail⟩ := x
  simp only [Xml.attrib, Xml.children] at *
  rw [addTemplateXml, loadTpl_eq, if_neg (by simp)] at h
  split at h
  · simp only [bind_ok_iff] at h
    obtain ⟨n, ⟨ts, h1, r, h2, h3⟩, h4⟩ := h
    simp only [Except.ok.injEq] at h3
    subst h3
    rw [tplAttrs_get at_ hw] at h1
    have := loadTpls_each C o _ 0 _ ts (fun c hc => ⟨by
      unfold tagged at hc
      rw [List.mem_filter] at hc
      simpa using hc.2, hcs c hc⟩) h1
    rw [this.2]
    have hts : ts ≠ [] := by
      intro e; rw [e] at this
      exact hne (List.eq_nil_of_length_eq_zero this.1.symm)
    simp only [TplNode.templates, pure_ok, Except.ok.injEq] at h4
    rw [← h4]
    have : ts.isEmpty = false := by cases ts with
      | nil => exact absurd rfl hts
      | cons a b => rfl
    simp [this]
  · simp at h

/-- a name attribute wins over the given name -/
theorem loadTpl_named (C : TplCtx) (ov : Dict Str Val) (n m base meth pc : Str) (fs : List Str) (x : Xml) (hw : Dict.WF x.attrib)
    (hn : Dict.get? x.attrib c!"name" ≠ none) : loadTpl C ov ⟨n, base, meth, pc⟩ fs x = loadTpl C ov ⟨m, base, meth, pc⟩ fs x := by
  obtain ⟨tag, at_, text, cs, tail⟩ := x
  simp only [Xml.attrib] at hw hn
  have e : tplAttrs at_ ⟨n, base, meth, pc⟩ = tplAttrs at_ ⟨m, base, meth, pc⟩ := by
    rw [tplAttrs_get _ hw, tplAttrs_get _ hw]
    cases h : Dict.get? at_ c!"name" with
    | none => exact absurd h hn
    | some v => rfl
  rw [loadTpl_eq, loadTpl_eq, e]

/-- the first template inside -/
theorem loadTpls_open (C : TplCtx) (ov : Dict Str Val) (base : Str) (m : Nat) (x : Xml) (l : List Xml) (h1 : lower x.tag = c!"template")
    (h2 : x.children ≠ []) : loadTpls C ov base [] m (x :: l) = (do
      let t ← loadTpl C ov ⟨natStr m, base, c!"per_input", c!"."⟩ [] x
      let ts ← loadTpls C ov base [] (m + 1) l
      pure (t :: ts)) := by
  have hk : tagKind x.tag = .template := (kind_template _).2 (by simp [h1])
  have hne : x.children.isEmpty = false := by cases hx : x.children with
    | nil => exact absurd hx h2
    | cons a b => rfl
  rw [loadTpls, if_neg (by simp [hk]), if_neg (by simp), hne]
  rfl

/-- filtered templates inside -/
theorem loadTpls_filtered (C : TplCtx) (ov : Dict Str Val) (base : Str) (fs : List Str) (hfs : fs ≠ []) (n m : Nat) (cs : List Xml)
    (hcs : ∀ c ∈ cs, lower c.tag = c!"template" ∧ c.children ≠ [] ∧ Dict.WF c.attrib) :
    loadTpls C ov base fs n cs =
      loadTpls C ov base [] m (cs.filter (fun c => (Dict.get? c.attrib c!"name").elim false (fun q => decide (q ∈ fs)))) := by
  induction cs generalizing n m with
  | nil => rfl
  | cons x xs ih =>
    obtain ⟨h1, h2, h3⟩ := hcs x (by simp)
    have hk : tagKind x.tag = .template := (kind_template _).2 (by simp [h1])
    have ih := fun n m => ih n m (fun c hc => hcs c (by simp [hc]))
    have hne : x.children.isEmpty = false := by cases hx : x.children with
      | nil => exact absurd hx h2
      | cons a b => rfl
    rw [loadTpls, if_neg (by simp [hk])]
    cases hn : Dict.get? x.attrib c!"name" with
    | none =>
      rw [if_pos ⟨hfs, by simp⟩, List.filter_cons_of_neg (by simp [hn])]
      exact ih _ _
    | some q =>
      by_cases hq : q ∈ fs
      · have hr := loadTpls_open C ov base m x (xs.filter (fun c => (Dict.get? c.attrib c!"name").elim false (fun q => decide (q ∈ fs)))) h1 h2
        rw [if_neg (by simp [hq]), List.filter_cons_of_pos (by simp [hn, hq]), hr, hne]
        simp only [Bool.false_eq_true, if_false]
        rw [loadTpl_named C ov (natStr n) (natStr m) base _ _ [] x h3 (by rw [hn]; simp), ih (n + 1) (m + 1)]
      · rw [if_pos ⟨hfs, by simp [hq]⟩, List.filter_cons_of_neg (by simp [hn, hq])]
        exact ih _ _

/-- C90. With filters that have the name of the outer template: only the templates inside whose names are filters are added, one by one. -/
theorem C90_filters_partial (C : TplCtx) (o o' : TTPObj) (bp name : Str) (filters : List Str) (x : Xml) (hw : Dict.WF x.attrib)
    (hf : (Dict.get? x.attrib c!"name").getD name ∈ filters)
    (hcs : ∀ c ∈ tagged [c!"template"] x.children, c.children ≠ [] ∧ Dict.WF c.attrib ∧ tagged [c!"template"] c.children = [])
    (hne : (tagged [c!"template"] x.children).filter (fun c => (Dict.get? c.attrib c!"name").elim false (fun q => decide (q ∈ filters))) ≠ [])
    (h : addTemplateXml C o bp name filters x = .ok o') :
    addEach C ((Dict.get? x.attrib c!"base_path").getD bp) 0 o
      ((tagged [c!"template"] x.children).filter (fun c => (Dict.get? c.attrib c!"name").elim false (fun q => decide (q ∈ filters)))) = .ok o' := by
  obtain ⟨tag, at_, text, cs, tail⟩ := x
  have ea : (Xml.mk tag at_ text cs tail).attrib = at_ := rfl
  have ec : (Xml.mk tag at_ text cs tail).children = cs := rfl
  rw [ea] at hw hf ⊢
  rw [ec] at hcs hne ⊢
  have hcs' : ∀ c ∈ tagged [c!"template"] cs, lower c.tag = c!"template" ∧ c.children ≠ [] ∧ Dict.WF c.attrib ∧
      tagged [c!"template"] c.children = [] := by
    intro c hc
    refine ⟨?_, hcs c hc⟩
    unfold tagged at hc
    rw [List.mem_filter] at hc
    simpa using hc.2
  have hfs : filters ≠ [] := by intro e; rw [e] at hf; simp at hf
  rw [addTemplateXml, loadTpl_eq, if_neg (by rw [tplAttrs_get at_ hw]; simp [hf])] at h
  split at h
  · simp only [bind_ok_iff] at h
    obtain ⟨n, ⟨ts, h1, r, h2, h3⟩, h4⟩ := h
    simp only [Except.ok.injEq] at h3
    subst h3
    rw [tplAttrs_get at_ hw, loadTpls_filtered C _ _ _ hfs 0 0 _ (fun c hc => ⟨(hcs' c hc).1, (hcs' c hc).2.1, (hcs' c hc).2.2.1⟩)] at h1
    have := loadTpls_each C o _ 0 _ ts (fun c hc => ⟨(hcs' c (List.mem_filter.1 hc).1).1, (hcs' c (List.mem_filter.1 hc).1).2.1,
      (hcs' c (List.mem_filter.1 hc).1).2.2.2⟩) h1
    rw [this.2]
    have hts : ts ≠ [] := by
      intro e; rw [e] at this
      exact hne (List.eq_nil_of_length_eq_zero this.1.symm)
    simp only [TplNode.templates, pure_ok, Except.ok.injEq] at h4
    rw [← h4]
    have : ts.isEmpty = false := by cases ts with
      | nil => exact absurd rfl hts
      | cons a b => rfl
    simp [this]
  · simp at h

/-- C90. With filters that do not have the name of the outer template an empty template is added, whatever is inside. -/
theorem C90_filtered_out (C : TplCtx) (o : TTPObj) (bp name : Str) (filters : List Str) (x : Xml) (hw : Dict.WF x.attrib)
    (hf : (Dict.get? x.attrib c!"name").getD name ∉ filters) (hne : filters ≠ []) :
    ∃ t, addTemplateXml C o bp name filters x = .ok { o with templates := o.templates ++ [t] } ∧
      t.name = (Dict.get? x.attrib c!"name").getD name ∧ t.groups = [] ∧ t.inputs = [] ∧ t.outputs = [] ∧ t.results = .list [] := by
  obtain ⟨tag, at_, text, cs, tail⟩ := x
  have ea : (Xml.mk tag at_ text cs tail).attrib = at_ := rfl
  rw [ea] at hw hf ⊢
  rw [addTemplateXml, loadTpl_eq, if_pos ⟨hne, by rw [tplAttrs_get at_ hw]; exact hf⟩]
  simp only [loadRest, parseVarsAll, loadOutputs, parseLookups, loadTops, loadInputs, pure_ok, ok_bind, TplNode.templates, List.isEmpty_nil,
    if_true, TplNode.tpl]
  rw [tplAttrs_get at_ hw]
  exact ⟨_, rfl, rfl, rfl, rfl, rfl, rfl⟩

/-- C90. The name of an added template is its `name` attribute, else the name it was given. -/
theorem C90_name (C : TplCtx) (o o' : TTPObj) (bp name : Str) (x : Xml) (hw : Dict.WF x.attrib) (hno : tagged [c!"template"] x.children = [])
    (h : addTemplateXml C o bp name [] x = .ok o') :
    ∃ t, o' = { o with templates := o.templates ++ [t] } ∧ t.name = (Dict.get? x.attrib c!"name").getD name ∧
      t.method = (Dict.get? x.attrib c!"results").getD c!"per_input" ∧ t.results = .list [] := by
  obtain ⟨r, h1, h2⟩ := addTemplateXml_plain C o o' bp name x hno h
  obtain ⟨tv, outs, ls, tops, ins, e1, e2, e3, e4, e5, e6⟩ := loadRest_ok C _ _ _ _ h1
  rw [tplAttrs_get _ hw] at e6
  exact ⟨r.1, h2, by rw [e6], by rw [e6], by rw [e6]⟩

/-- the hypotheses are met: two templates inside, with and without name -/
example : Ex.tplNames (addTemplateXml Ex.tctx Ex.objE [] c!"_root_template_" [] (Ex.root [Ex.tagT c!"a" [Ex.tagG c!"g"], Ex.root [Ex.tagG c!"h"]])) =
    some [(c!"a", [c!"g"]), (c!"1", [c!"h"])] := by decide +kernel
example : tagged [c!"template"] (Ex.root [Ex.tagT c!"a" [Ex.tagG c!"g"], Ex.root [Ex.tagG c!"h"]]).children ≠ [] ∧
    ∀ c ∈ tagged [c!"template"] (Ex.root [Ex.tagT c!"a" [Ex.tagG c!"g"], Ex.root [Ex.tagG c!"h"]]).children,
      c.children ≠ [] ∧ tagged [c!"template"] c.children = [] := by
  have e : tagged [c!"template"] (Ex.root [Ex.tagT c!"a" [Ex.tagG c!"g"], Ex.root [Ex.tagG c!"h"]]).children =
    [Ex.tagT c!"a" [Ex.tagG c!"g"], Ex.root [Ex.tagG c!"h"]] := rfl
  rw [e]
  refine ⟨by simp, ?_⟩
  intro c hc
  simp only [List.mem_cons, List.not_mem_nil, or_false] at hc
  rcases hc with e | e <;> subst e <;> exact ⟨by simp [Ex.tagT, Ex.root, Xml.children], rfl⟩

/-- C90 fails for a filter with the name of a template inside: unless the name of the outer template is a filter as well, an empty template is
added instead. -/
theorem C90_filter_of_inner_name : ∃ (C : TplCtx) (o : TTPObj) (x : Xml),
    Ex.tplNames (addTemplateXml C o [] c!"_root_template_" [] x) = some [(c!"a", [c!"g"]), (c!"b", [c!"h"])] ∧
    Ex.tplNames (addTemplateXml C o [] c!"_root_template_" [c!"a"] x) = some [(c!"_root_template_", [])] ∧
    Ex.tplNames (addTemplateXml C o [] c!"_root_template_" [c!"a", c!"_root_template_"] x) = some [(c!"a", [c!"g"])] :=
  ⟨Ex.tctx, Ex.objE, Ex.root [Ex.tagT c!"a" [Ex.tagG c!"g"], Ex.tagT c!"b" [Ex.tagG c!"h"]], by decide +kernel, by decide +kernel,
    by decide +kernel⟩

/-- C90 fails for templates inside of templates inside, and for groups beside templates: both are lost. -/
theorem C90_lost_tags : ∃ (C : TplCtx) (o : TTPObj) (x y : Xml),
    x = Ex.root [Ex.tagT c!"a" [Ex.tagG c!"g", Ex.tagT c!"b" [Ex.tagG c!"h"]]] ∧
    Ex.tplNames (addTemplateXml C o [] c!"_root_template_" [] x) = some [(c!"a", [c!"g"])] ∧
    y = Ex.root [Ex.tagG c!"g", Ex.tagT c!"b" [Ex.tagG c!"h"]] ∧
    Ex.tplNames (addTemplateXml C o [] c!"_root_template_" [] y) = some [(c!"b", [c!"h"])] :=
  ⟨Ex.tctx, Ex.objE, _, _, rfl, by decide +kernel, rfl, by decide +kernel⟩

/-! ## C91 -/

/-- C91. Input tags with the text itself: the inputs are the distinct names in order (before inputs that only groups name), an input has the
distinct texts of the tags with its name in order, and it is for the groups each of these tags is for. -/
theorem C91_text_inputs (C : TplCtx) (hE : C.eng.SetOrderOk) (o o' : TTPObj) (bp name : Str) (x : Xml)
    (hno : tagged [c!"template"] x.children = []) (qs : List (Str × List Str × Str))
    (hq : All2 (fun x q => TextInput x q.1 q.2.1 q.2.2) (tagged [c!"i", c!"in", c!"input"] x.children) qs)
    (h : addTemplateXml C o bp name [] x = .ok o') :
    ∃ t, o' = { o with templates := o.templates ++ [t] } ∧
      (qs.map (·.1)).eraseDups <+: Dict.keys t.inputs ∧
      ∀ n ∈ qs.map (·.1), t.dataOf n = some (((qs.filter (fun q => decide (q.1 = n))).map (fun q => (⟨.text, .str q.2.2⟩ : Datum))).eraseDups) ∧
        ∃ l, t.groupsFor n = some l ∧ ∀ i, i ∈ l ↔ ∃ q ∈ qs, q.1 = n ∧ Routed t.groups n q.2.1 i := by
  obtain ⟨r, h1, h2⟩ := addTemplateXml_plain C o o' bp name x hno h
  obtain ⟨tv, outs, ls, tops, ins, e1, e2, e3, e4, e5, e6⟩ := loadRest_ok C _ _ _ _ h1
  have hi := loadInputs_text C (tops.map (·.1)) (tplAttrs x.attrib ⟨name, bp, c!"per_input", c!"."⟩).base _ qs hq []
  have e5' : loadInputs C (tops.map (·.1)) (tplAttrs x.attrib ⟨name, bp, c!"per_input", c!"."⟩).base
    (tagged [c!"i", c!"in", c!"input"] x.children) [] = .ok ins := e5
  rw [hi] at e5'
  simp only [Except.ok.injEq] at e5'
  refine ⟨r.1, h2, ?_, ?_⟩
  · rw [e6]
    refine List.IsPrefix.trans ?_ (groupInputs_keys _ _ _ _ _)
    rw [← e5', putTexts_keys]
    have e : (qs.map (·.1)).removeAll (Dict.keys ([] : Dict Str TInput)) = qs.map (·.1) := by
      simp only [List.removeAll, Dict.keys, List.map_nil]
      exact List.filter_eq_self.2 (by simp)
    rw [e]; exact List.prefix_refl _
  · intro n hn
    have hp := putTexts_spec C.eng hE (tops.map (·.1)) qs [] n
    rw [if_neg (by rintro ⟨_, b⟩; exact b hn)] at hp
    have hsome : Dict.get? (putTexts C.eng (tops.map (·.1)) qs []) n ≠ none := by
      intro e; rw [e] at hp; simp at hp
    have hg : Dict.get? r.1.inputs n = Dict.get? (putTexts C.eng (tops.map (·.1)) qs []) n := by
      rw [e6]; dsimp only
      rw [groupInputs_get, ← e5', if_neg (by rintro ⟨a, _⟩; exact hsome a)]
    refine ⟨?_, ?_⟩
    · unfold Tpl.dataOf
      rw [hg, hp.1, Dict.get?_nil, Option.map_none, Option.getD_none, loadData_nil]
    · cases hl : (Dict.get? (putTexts C.eng (tops.map (·.1)) qs []) n).map (·.groups) with
      | none => rw [Option.map_eq_none_iff] at hl; exact absurd hl hsome
      | some l =>
        refine ⟨l, by unfold Tpl.groupsFor; rw [hg, hl], ?_⟩
        intro i
        rw [hp.2 l hl i]
        simp only [Dict.get?_nil, reduceCtorEq, false_and, exists_false, false_or]
        constructor
        · rintro ⟨q, a, b, c⟩
          exact ⟨q, a, b, by rw [e6]; exact (mem_inputGroups _ _ _ _).1 c⟩
        · rintro ⟨q, a, b, c⟩
          exact ⟨q, a, b, by rw [e6] at c; exact (mem_inputGroups _ _ _ _).2 c⟩

/-- the hypotheses are met -/
example : All2 (fun x q => TextInput x q.1 q.2.1 q.2.2) (tagged [c!"i", c!"in", c!"input"] (Ex.root [Ex.tagI c!"b" c!"x", Ex.tagG c!"g",
    Ex.tagI c!"a" c!"y", Ex.tagI c!"b" c!"z"]).children)
      [(c!"b", [c!"all"], c!"x"), (c!"a", [c!"all"], c!"y"), (c!"b", [c!"all"], c!"z")] := by
  refine .cons ?_ (.cons ?_ (.cons ?_ .nil)) <;>
    exact ⟨by decide, by unfold Dict.WF; decide, by decide, ⟨c!"text", by decide, by decide⟩, by decide, rfl, by decide⟩
example : Ex.viewT (α := List (Str × List Val × List Nat))
      (fun t => List.map (fun (i : Str × TInput) => (i.1, i.2.data.map (·.val), i.2.groups)) t.inputs)
       (addTemplateXml Ex.tctx Ex.objE [] c!"t" [] (Ex.root [Ex.tagI c!"b" c!"x", Ex.tagG c!"g", Ex.tagGi c!"h" c!"a",
      Ex.tagI c!"a" c!"y", Ex.tagI c!"b" c!"z"])) = some [[(c!"b", [.str c!"x", .str c!"z"], [0]), (c!"a", [.str c!"y"], [1])]] := by decide +kernel

/-! ## C92 -/

/-- C92. An input that has no tag and is only named by groups is read from the file or directory of that name after the base path; it is
for the groups that name it. An input named by no tag and no group does not exist. -/
theorem C92_inputs_of_groups (C : TplCtx) (hE : C.eng.SetOrderOk) (o o' : TTPObj) (bp name : Str) (x : Xml) (hw : Dict.WF x.attrib)
    (hno : tagged [c!"template"] x.children = []) (qs : List (Str × List Str × Str))
    (hq : All2 (fun x q => TextInput x q.1 q.2.1 q.2.2) (tagged [c!"i", c!"in", c!"input"] x.children) qs)
    (h : addTemplateXml C o bp name [] x = .ok o') :
    ∃ t, o' = { o with templates := o.templates ++ [t] } ∧ ∀ n, n ∉ qs.map (·.1) →
      ((∃ g ∈ t.groups, n ∈ g.inputs) →
        t.dataOf n = some (((loadFiles C.eng.world (.str ((Dict.get? x.attrib c!"base_path").getD bp ++ n))).filter
          (fun d => decide (d.kind ≠ .text))).eraseDups) ∧
        ∃ l, t.groupsFor n = some l ∧ l.Pairwise (· < ·) ∧ ∀ i, i ∈ l ↔ ∃ g ∈ t.groups, g.index = i ∧ n ∈ g.inputs) ∧
      ((∀ g ∈ t.groups, n ∉ g.inputs) → t.dataOf n = none) := by
  obtain ⟨r, h1, h2⟩ := addTemplateXml_plain C o o' bp name x hno h
  obtain ⟨tv, outs, ls, tops, ins, e1, e2, e3, e4, e5, e6⟩ := loadRest_ok C _ _ _ _ h1
  have hi := loadInputs_text C (tops.map (·.1)) (tplAttrs x.attrib ⟨name, bp, c!"per_input", c!"."⟩).base _ qs hq []
  have e5' : loadInputs C (tops.map (·.1)) (tplAttrs x.attrib ⟨name, bp, c!"per_input", c!"."⟩).base
    (tagged [c!"i", c!"in", c!"input"] x.children) [] = .ok ins := e5
  rw [hi] at e5'
  simp only [Except.ok.injEq] at e5'
  refine ⟨r.1, h2, ?_⟩
  intro n hn
  have hp := putTexts_spec C.eng hE (tops.map (·.1)) qs [] n
  rw [if_pos ⟨rfl, hn⟩, Option.map_eq_none_iff] at hp
  have hg := groupInputs_get C (tops.map (·.1)) (tplAttrs x.attrib ⟨name, bp, c!"per_input", c!"."⟩).base
    ((tops.map (·.1)).flatMap (·.inputs)) (putTexts C.eng (tops.map (·.1)) qs []) n
  rw [hp.1, e5'] at hg
  have hr : r.1.inputs = groupInputs C (tops.map (·.1)) (tplAttrs x.attrib ⟨name, bp, c!"per_input", c!"."⟩).base
    ((tops.map (·.1)).flatMap (·.inputs)) ins := by rw [e6]
  rw [← hr] at hg
  have hgs : r.1.groups = tops.map (·.1) := by rw [e6]
  constructor
  · rintro ⟨g, g1, g2⟩
    rw [hgs] at g1
    rw [if_pos ⟨rfl, List.mem_flatMap.2 ⟨g, g1, g2⟩⟩] at hg
    refine ⟨?_, inputGroups (tops.map (·.1)) n [c!"all"], ?_, inputGroups_lt _ _ _, ?_⟩
    · unfold Tpl.dataOf; rw [hg, Option.map_some, loadData_nil, tplAttrs_get _ hw]
    · unfold Tpl.groupsFor; rw [hg]; rfl
    · intro i
      rw [mem_inputGroups, hgs]
      constructor
      · rintro (h | ⟨h, _⟩)
        · exact h
        · exact absurd g2 (h g g1)
      · intro h; exact Or.inl h
  · intro hnone
    rw [hgs] at hnone
    rw [if_neg (by
      rintro ⟨_, b⟩
      obtain ⟨g, g1, g2⟩ := List.mem_flatMap.1 b
      exact hnone g g1 g2)] at hg
    unfold Tpl.dataOf; rw [hg]; rfl

/-- a file system with the file `d/f` -/
def Ex.engF : Engine := { Ex.eng0 with world := { Ex.world0 with isFile := fun p => decide (p = c!"d/f") } }
example : Ex.viewT (α := List (Str × List Datum × List Nat))
      (fun t => List.map (fun (i : Str × TInput) => (i.1, i.2.data, i.2.groups)) t.inputs)
       (addTemplateXml { Ex.tctx with eng := Ex.engF } Ex.objE c!"d/" c!"t" [] (Ex.root [Ex.tagG c!"g", Ex.tagGi c!"h" c!"f"])) = some [[(c!"f", [⟨.file, .str c!"d/f"⟩], [1])]] := by decide +kernel

end Props
