import Verif.Proofs.Cli
/-!
# C162: the command line
-/

set_option synthInstance.maxSize 4000

namespace TTP
open Py Spec Props

/-- a template of text lines that is added to a new parser -/
theorem plain_loaded (C : TplCtx) (X : ExtCtx) (l : TplLine) (tpl : List TplLine) (ho : ∀ l' ∈ l :: tpl, l'.OK) (text u : Str)
    (hl : LinesOf (l :: tpl) u) (hx : ReadsPlain X.parse text u) (arg : Str) (ht : Given C.eng.world arg text) (htne2 : text ≠ [])
    (hrw : TreeOf X.parse (X.write (textTree u)) (textTree u)) (base : Str) (vars : Dict Str Val)
    (hw : ∀ k dd, (k, Val.dict dd) ∈ vars → Dict.WF dd) (hv : ∀ kv ∈ vars, ¬ Getter C kv.2) :
    addTemplateAny C X ⟨[], vars, [], []⟩ base c!"_root_template_" [] (.str arg) =
      .ok ⟨[⟨c!"_root_template_", [⟨0, c!"_anonymous_", [], tplGrp c!"_anonymous_" l tpl⟩], [], vars, [], [], [], [], c!"per_input", .list []⟩], vars, [], []⟩ := by
  generalize hgx : Xml.mk c!"group" [(c!"name", c!"_anonymous_")] (some (c!"\n" ++ u ++ c!"\n")) [] none = gx
  have hload1 : loadGroup { C.load with vars := vars } c!"." true [] none 0 0 gx = .ok (⟨tplGrp c!"_anonymous_" l tpl, c!"_anonymous_", [], []⟩, 1) := by
    rw [← loadGroup_tpl { C.load with vars := vars } c!"_anonymous_" (by decide) (by decide) (by decide) l tpl ho none, ← hgx]
    refine loadGroup_same _ _ hw _ _ (.mk (.some ?_) .nil .none) _ _ _ _ _
    rw [splitlines_tpl _ ho]
    exact .right [] (Or.inl (by simp)) hl
  generalize hgs : [(⟨0, c!"_anonymous_", [], tplGrp c!"_anonymous_" l tpl⟩ : TopGroup)] = gs
  have htops : loadTops { C.load with vars := vars } c!"." 0 0 [gx] = .ok (gs.map (fun g => (g, []))) := by
    rw [← hgs]
    simp only [loadTops, hload1, ok_bind, pure_ok, List.map_cons, List.map_nil]
  have hgs2 : ∀ g ∈ gs, g.inputs = [] := by rw [← hgs]; simp
  have htag : gx.tag = c!"group" := by rw [← hgx]; rfl
  have hkind : ∀ ns : List Str, tagged ns [gx] = if c!"group" ∈ ns then [gx] else [] := by
    intro ns
    have : lower c!"group" = c!"group" := by decide
    by_cases e : c!"group" ∈ ns <;> simp [tagged, htag, this, e]
  have hload : addTemplateXml C ⟨[], vars, [], []⟩ base c!"_root_template_" [] (.mk c!"template" [] none [gx] none) =
      .ok ⟨[⟨c!"_root_template_", gs, [], vars, [], [], [], [], c!"per_input", .list []⟩], vars, [], []⟩ := by
    have hdoc : DocsOk [gx] := by
      intro x hx e
      simp only [List.mem_singleton] at hx
      subst hx
      rw [htag] at e
      exact absurd e (by decide)
    rw [addTemplateXml, loadTpl_eq, if_neg (by simp), if_pos hdoc, hkind, if_neg (by decide), loadTpls_nil, ok_bind]
    have hfm : gs.flatMap (·.inputs) = [] := by rw [List.flatMap_eq_nil_iff]; exact hgs2
    have hm1 : (gs.map (fun g => (g, ([] : List Str)))).map (·.1) = gs := by simp [List.map_map, Function.comp_def]
    have k1 : tagged [c!"v", c!"vars", c!"variables"] [gx] = [] := by rw [hkind, if_neg (by decide)]
    have k2 : tagged [c!"o", c!"out", c!"output"] [gx] = [] := by rw [hkind, if_neg (by decide)]
    have k3 : tagged [c!"lookup"] [gx] = [] := by rw [hkind, if_neg (by decide)]
    have k4 : tagged [c!"g", c!"grp", c!"group"] [gx] = [gx] := by rw [hkind, if_pos (by decide)]
    have k5 : tagged [c!"i", c!"in", c!"input"] [gx] = [] := by rw [hkind, if_neg (by decide)]
    have hrest : loadRest C vars (tplAttrs [] ⟨c!"_root_template_", base, c!"per_input", c!"."⟩) (tagsOf [gx]) =
        .ok (⟨c!"_root_template_", gs, [], vars, [], [], [], [], c!"per_input", .list []⟩,
          (updateGroups (fun o : Outputter => o.name.getD []) [] [] ((gs.map (fun g => (g, ([] : List Str)))).map (·.2))).2.2) := by
      unfold loadRest tagsOf
      simp only [tplAttrs, k1, k2, k3, k4, k5, parseVarsAll, loadOutputs, parseLookups, loadInputs, loadInputsFrom, pure_ok, ok_bind, htops, hm1, hfm, groupInputs,
        getVarFunctions_none C vars hv]
      rw [updateGroups_none _ _ (by intro n hn; simp at hn; exact hn.2)]
    rw [hrest, ok_bind, ok_bind]
    simp [TplNode.templates, TplNode.tpl]
  have hread : readTemplate C.eng.world X text = .ok (.mk c!"template" [] none [gx] none) := by
    rw [← hgx]
    exact readTemplate_settled htne2 (.text hx) (.cons (.mk (by decide) (fun _ => .nil)) .nil) hrw
  simp only [addTemplateAny, loadRead_given ht, ok_bind, addTexts, hread, hload, pure_ok]

theorem formResults_name {t t' : Tpl} {r : Val} (h : formResults t r = .ok t') : t'.name = t.name := by
  unfold formResults at h
  obtain ⟨d, _, h⟩ := (bind_ok_iff _ _ _).1 h
  split at h
  · cases h; rfl
  · split at h
    · split at h
      · cases h; rfl
      · cases h
    · cases h; rfl

theorem parsePerInput_name (E : Engine) (jobs : List (TInput × Datum)) (t t' : Tpl) (g g' : Dict Str Val) (h : parsePerInput E jobs t g = .ok (t', g')) :
    t'.name = t.name := by
  induction jobs generalizing t g with
  | nil => cases h; rfl
  | cons j jobs ih =>
    obtain ⟨inp, d⟩ := j
    simp only [parsePerInput] at h
    obtain ⟨⟨r, g1⟩, _, h⟩ := (bind_ok_iff _ _ _).1 h
    obtain ⟨t1, h1, h⟩ := (bind_ok_iff _ _ _).1 h
    rw [ih _ _ h, formResults_name h1]

theorem parseTplOne_name {E : Engine} {t t' : Tpl} {g g' : Dict Str Val} (h : parseTplOne E t g = .ok (t', g')) : t'.name = t.name := by
  unfold parseTplOne at h
  split at h
  · exact parsePerInput_name E _ _ _ _ _ h
  · split at h
    · obtain ⟨⟨r, g1⟩, _, h⟩ := (bind_ok_iff _ _ _).1 h
      obtain ⟨t1, h1, h⟩ := (bind_ok_iff _ _ _).1 h
      cases h
      exact formResults_name h1
    · cases h; rfl

/-- a parse keeps the names of the templates -/
theorem parseOne_names (E : Engine) (x o2 : TTPObj) (h : parseOne E x = .ok o2) : o2.templates.map (·.name) = x.templates.map (·.name) := by
  unfold parseOne at h
  obtain ⟨⟨ts, g⟩, h1, h⟩ := (bind_ok_iff _ _ _).1 h
  obtain ⟨ts', h2, h⟩ := (bind_ok_iff _ _ _).1 h
  cases h
  have a1 : ∀ (xs ts : List Tpl) (g0 g : Dict Str Val), parseAllOne E xs g0 = .ok (ts, g) → ts.map (·.name) = xs.map (·.name) := by
    intro xs
    induction xs with
    | nil => intro ts g0 g h; cases h; rfl
    | cons x xs ih =>
      intro ts g0 g h
      simp only [parseAllOne] at h
      obtain ⟨⟨t1, g1⟩, h1, h⟩ := (bind_ok_iff _ _ _).1 h
      obtain ⟨⟨t2, g2⟩, h2, h⟩ := (bind_ok_iff _ _ _).1 h
      cases h
      simp only [List.map_cons, parseTplOne_name h1, ih _ _ _ h2]
  have a2 : ∀ (xs ts : List Tpl), runOutputsAll E xs = .ok ts → ts.map (·.name) = xs.map (·.name) := by
    intro xs
    induction xs with
    | nil => intro ts h; cases h; rfl
    | cons x xs ih =>
      intro ts h
      simp only [runOutputsAll] at h
      obtain ⟨t1, h1, h⟩ := (bind_ok_iff _ _ _).1 h
      obtain ⟨t2, h2, h⟩ := (bind_ok_iff _ _ _).1 h
      cases h
      unfold runOutputs at h1
      obtain ⟨⟨v, os⟩, _, h1⟩ := (bind_ok_iff _ _ _).1 h1
      cases h1
      simp only [List.map_cons, ih _ h2]
  rw [a2 _ _ h2, a1 _ _ _ _ h1]

/-- the parse of texts that are given to the template, as a text or as files -/
theorem plain_parsed (E : Engine) (l : TplLine) (tpl : List TplLine) (ho : ∀ l' ∈ l :: tpl, l'.OK) (vars ovars : Dict Str Val) (p : Str) (cs : List Str)
    (hd : CliTexts E.world p cs) (hc : ∀ c ∈ cs, Clear (l :: tpl) c) (o : TTPObj)
    (hob : o = ⟨[⟨c!"_root_template_", [⟨0, c!"_anonymous_", [], tplGrp c!"_anonymous_" l tpl⟩], [], vars, [], [], [], [], c!"per_input", .list []⟩], ovars, [], []⟩) :
    (dataSize E.world (setInput E o (.str p) c!"Default_Input" c!"_root_template_" [])).2 = cs.length ∧
    ∃ o2 vs, parseOne E (setInput E o (.str p) c!"Default_Input" c!"_root_template_" []) = .ok o2 ∧
      All2 (fun d w => PlainMeans (l :: tpl) d w ∧ TextRows w) cs vs ∧
      o2.templates.map (fun t => (t.name, t.results)) = [(c!"_root_template_", .list vs)] := by
  have hsel : selected c!"_root_template_" ⟨c!"_root_template_", [⟨0, c!"_anonymous_", [], tplGrp c!"_anonymous_" l tpl⟩], [], vars, [], [], [], [], c!"per_input", .list []⟩ = true := by
    simp [selected]
  have hcl : clearInput o c!"_root_template_" = o := by
    subst hob
    simp only [clearInput, List.map_cons, List.map_nil, hsel, if_true]
  have hset : setInput E o (.str p) c!"Default_Input" c!"_root_template_" [] = addInput E o (.str p) c!"Default_Input" c!"_root_template_" [] := by
    unfold setInput; rw [hcl]
  rw [hset]
  have hall := inputGroups_all [(⟨0, c!"_anonymous_", [], tplGrp c!"_anonymous_" l tpl⟩ : TopGroup)] 1 rfl (by simp)
  have hno : NoData o c!"Default_Input" := by
    subst hob
    intro t ht
    simp only [List.mem_singleton] at ht
    subst ht
    rfl
  have hput : ∀ ds, putData o c!"Default_Input" c!"_root_template_" [] ds =
      ⟨[⟨c!"_root_template_", [⟨0, c!"_anonymous_", [], tplGrp c!"_anonymous_" l tpl⟩], [(c!"Default_Input", ⟨ds, List.range 1, [], .dict []⟩)], vars, [], [], [], [],
        c!"per_input", .list []⟩], ovars, [], []⟩ := by
    intro ds
    subst hob
    simp only [putData, List.map_cons, List.map_nil, hsel, if_true, orAll, hall]
    rfl
  have hparse : ∀ inputs : Dict Str (List Str), (∀ i ∈ inputs, ∀ d ∈ i.2, Clear (l :: tpl) d) → _ := fun inputs h =>
    parseOne_each' E (fun d w => PlainMeans (l :: tpl) d w ∧ TextRows w) (Clear (l :: tpl)) [⟨0, c!"_anonymous_", [], tplGrp c!"_anonymous_" l tpl⟩]
      (fun d hcd env => plain_one_text E.mf E.gf E.toInt l tpl ho d hcd env) c!"_root_template_" vars [] [] ovars [] inputs h
  -- as texts
  have htext : ∃ o2 vs, parseOne E (putData o c!"Default_Input" c!"_root_template_" [] (cs.map (fun c => ⟨.text, .str c⟩))) = .ok o2 ∧
      All2 (fun d w => PlainMeans (l :: tpl) d w ∧ TextRows w) cs vs ∧ o2.templates.map (·.results) = [.list vs] := by
    obtain ⟨o2, vs, e1, e2, e3⟩ := hparse [(c!"Default_Input", cs)] (by simpa using hc)
    refine ⟨o2, vs, ?_, by simpa using e2, e3⟩
    rw [hput]
    exact e1
  have hseen : ∀ (x y : TTPObj), seen (parseOne E x) = seen (parseOne E y) → y.templates.map (·.name) = [c!"_root_template_"] →
      (∃ o2 vs, parseOne E y = .ok o2 ∧ All2 (fun d w => PlainMeans (l :: tpl) d w ∧ TextRows w) cs vs ∧ o2.templates.map (·.results) = [.list vs]) →
      ∃ o2 vs, parseOne E x = .ok o2 ∧ All2 (fun d w => PlainMeans (l :: tpl) d w ∧ TextRows w) cs vs ∧
        o2.templates.map (fun t => (t.name, t.results)) = [(c!"_root_template_", .list vs)] := by
    intro x y hs hy ⟨o2, vs, e1, e2, e3⟩
    have hn := parseOne_names E y o2 e1
    rw [hy] at hn
    have hboth : o2.templates.map (fun t => (t.name, t.results)) = [(c!"_root_template_", .list vs)] := by
      match ht : o2.templates, hn, e3 with
      | [t], hn, e3 =>
        simp only [List.map_cons, List.map_nil, List.cons.injEq, and_true] at hn e3 ⊢
        rw [hn, e3]
      | [], hn, _ => simp at hn
      | _ :: _ :: _, hn, _ => simp at hn
    rw [e1] at hs
    cases hx : parseOne E x with
    | error e => rw [hx] at hs; cases hs
    | ok o1 =>
      rw [hx] at hs
      simp only [seen, Except.ok.injEq, Prod.mk.injEq] at hs
      exact ⟨o1, vs, rfl, e2, hs.1.trans hboth⟩
  cases hd with
  | text hnp =>
    rw [addInput_new E o _ _ _ [] _ (loadFiles_text _ _ hnp) (by simp) (by simp) hno]
    refine ⟨?_, hseen _ _ rfl ?_ htext⟩
    · rw [hput]; rfl
    · rw [hput]; rfl
  | files hf hnd hft =>
    rename_i fs
    by_cases hne : fs = []
    · subst hne
      cases hft
      have e : addInput E o (.str p) c!"Default_Input" c!"_root_template_" [] = o := by
        unfold addInput; rw [loadFiles_names hf]; rfl
      rw [e]
      obtain ⟨o2, vs, e1, e2, e3⟩ := hparse [] (by simp)
      refine ⟨by subst hob; rfl, hseen o o rfl (by subst hob; rfl) ⟨o2, vs, ?_, e2, e3⟩⟩
      subst hob; exact e1
    · rw [addInput_new E o _ _ _ [] _ (loadFiles_names hf) (by simpa using hne)
        (List.Pairwise.map _ (fun a b h e => h (by simpa using e)) hnd) hno]
      refine ⟨?_, hseen _ _ (putData_alike E o _ _ [] _ (cs.map (fun c => ⟨.text, .str c⟩)) hno ?_) (by rw [hput]; rfl) htext⟩
      · rw [hput]
        have : fs.length = cs.length := all2_len hft
        simp [dataSize, jobsOf, this]
      · intro t ht r
        apply All2_map
        clear hf hnd hne htext hc hparse hseen
        induction hft with
        | nil => exact .nil
        | cons h1 _ ih =>
          refine .cons ?_ ih
          refine alike_of E _ _ _ _ _ _ (dataOf_file h1) rfl ?_
          subst hob
          simp only [List.mem_singleton] at ht
          subst ht
          simp

theorem all2_flat {α β γ : Type} {R : β → γ → Prop} (f : α → List β) (vs : List α) (b : List γ) (h : All2 R (vs.flatMap f) b) :
    ∃ bs : List (List γ), b = bs.flatten ∧ All2 (fun v bb => All2 R (f v) bb) vs bs := by
  induction vs generalizing b with
  | nil => cases h; exact ⟨[], rfl, .nil⟩
  | cons v vs ih =>
    rw [List.flatMap_cons] at h
    have split : ∀ (xs ys : List β) (b : List γ), All2 R (xs ++ ys) b → ∃ b1 b2, b = b1 ++ b2 ∧ All2 R xs b1 ∧ All2 R ys b2 := by
      intro xs
      induction xs with
      | nil => intro ys b h; exact ⟨[], b, rfl, .nil, h⟩
      | cons x xs ih =>
        intro ys b h
        cases h with
        | cons h1 h2 =>
          obtain ⟨b1, b2, rfl, h3, h4⟩ := ih ys _ h2
          exact ⟨_ :: b1, b2, rfl, .cons h1 h3, h4⟩
    obtain ⟨b1, b2, rfl, h1, h2⟩ := split _ _ _ h
    obtain ⟨bs, rfl, h3⟩ := ih b2 h2
    exact ⟨b1 :: bs, rfl, .cons h1 h3⟩

theorem keyLt_self (k : Key) (h : KeyLt k k) : False := by
  cases k with
  | s a => exact absurd h (List.lt_irrefl a)
  | i n => exact absurd h (Int.lt_irrefl n)

theorem all2_at {α β : Type} {R : α → β → Prop} {l : List α} {m : List β} (h : All2 R l m) (i : Nat) (x : α) (y : β) (hx : l[i]? = some x) (hy : m[i]? = some y) :
    R x y := by
  induction h generalizing i with
  | nil => simp at hx
  | cons h1 _ ih =>
    cases i with
    | zero => simp at hx hy; subst hx hy; exact h1
    | succ i => exact ih i (by simpa using hx) (by simpa using hy)

theorem all2_right {α β : Type} {R : α → β → Prop} {P : β → Prop} {l : List α} {m : List β} (h : All2 R l m) (hp : ∀ a b, R a b → P b) : ∀ b ∈ m, P b := by
  induction h with
  | nil => simp
  | cons h1 _ ih =>
    intro b hb
    rcases List.mem_cons.1 hb with rfl | hb
    · exact hp _ _ h1
    · exact ih b hb

theorem same_rows {v : Val} {bb : List Val} (h : All2 SameVal (flatRows v) bb) : ∃ w, flatRows w = bb ∧ SameVal v w := by
  by_cases hl : ∃ ys, v = .list ys
  · obtain ⟨ys, rfl⟩ := hl
    refine ⟨.list bb, rfl, ?_⟩
    have h : All2 SameVal ys bb := h
    exact .list (all2_len h) (fun i x y hx hy => all2_at h i x y hx hy)
  · have : flatRows v = [v] := by cases v <;> first | rfl | exact absurd ⟨_, rfl⟩ hl
    rw [this] at h
    cases h with
    | cons h1 h2 =>
      cases h2
      rename_i w
      refine ⟨w, ?_, h1⟩
      cases h1 <;> first | rfl | exact absurd ⟨_, rfl⟩ hl

end TTP

namespace Props
open Py Spec TTP

/-- C162. The command line tool with a template file (or a template text) of text lines, data that are a path or a text, and JSON asked for - or a
format that the tool does not know: what is printed is a JSON document of the results of the texts in their order, in the
asked structure; variables may be given in JSON. -/
theorem C162_command_line (C : TplCtx) (X : ExtCtx) (T : Cli.Tool) (a : Cli.Options) (tpl : List TplLine) (hne : tpl ≠ []) (ho : ∀ l ∈ tpl, l.OK)
    (text u : Str) (hl : LinesOf tpl u) (hx : ReadsPlain X.parse text u) (hrw : TreeOf X.parse (X.write (textTree u)) (textTree u))
    (ht : Given C.eng.world a.template text) (ht0 : a.template ≠ []) (htn : a.templateName = []) (ht1 : NotAPath C.eng.world text) (ht2 : text ≠ [])
    (vars : Dict Str Val) (hvars : CliVars T.float a.vars vars) (hv : ∀ kv ∈ vars, ¬ Getter C kv.2)
    (cs : List Str) (hd0 : a.data ≠ []) (hd : CliTexts C.eng.world a.data cs) (hc : ∀ c ∈ cs, Clear tpl c)
    (hm : a.multi = false ∧ (a.one = true ∨ cs.length < 2)) (hj : WantsJson a.outputter)
    (hot : a.outTemplate = [] ∨ c!"_root_template_" ∈ (splitC ',' a.outTemplate).map strip)
    (hs : lower a.structure_ ∈ [c!"list", c!"dictionary", c!"flat_list"]) :
    ∃ o t ws doc, Cli.run C X T a = .ok (o, some (.str t)) ∧ JDocument T.float t doc ∧ CliShape ws a.structure_ doc ∧ All2 (PlainMeans tpl) cs ws := by
  obtain ⟨l, tpl, rfl⟩ := List.exists_cons_of_ne_nil hne
  obtain ⟨hrv, hw⟩ := readVars_given hvars
  have hnew : newTTP C X (.str []) (.str []) a.dataPrefix vars = .ok ⟨[], vars, [], []⟩ := rfl
  have hread : Cli.readTpl C T a = .ok (.str text) := by
    unfold Cli.readTpl
    rw [if_neg ht0, loadRead_given ht, ok_bind]
    unfold Cli.chosen
    simp only [htn, if_true, pure_ok]
  have hload := plain_loaded C X l tpl ho text u hl hx text (.text ht1) ht2 hrw a.dataPrefix vars hw hv
  obtain ⟨hcount, o2, vs, hp, hms, hnr⟩ := plain_parsed C.eng l tpl ho vars vars a.data cs hd hc _ rfl
  have hgive : ∀ o, Cli.giveData C a o = setInput C.eng o (.str a.data) c!"Default_Input" c!"_root_template_" [] := by
    intro o; unfold Cli.giveData; rw [if_neg hd0]
  have hmode : ∀ x : Nat × Nat, x.2 = cs.length → parseMode T.threshold x.1 x.2 a.one a.multi = .one := by
    intro x hx
    unfold parseMode
    rw [hm.1, hx]
    rcases hm.2 with h | h
    · simp [h]
    · have : ¬ (2 ≤ cs.length) := by omega
      cases a.one <;> simp [this]
  have hparse := hmode _ hcount
  -- the results
  have hres : ∃ v, Cli.results o2 a.structure_ (Cli.outTemplates a.outTemplate) = v ∧ CliShape vs a.structure_ v := by
    have hpick : pick o2 (Cli.outTemplates a.outTemplate) = o2.templates := by
      unfold pick
      split
      · rfl
      · rename_i hne2
        unfold Cli.outTemplates at hne2 ⊢
        rcases hot with h | h
        · rw [if_pos h] at hne2; exact absurd rfl hne2
        · have h0 : a.outTemplate ≠ [] := by intro e; rw [if_pos e] at hne2; exact hne2 rfl
          rw [if_neg h0, List.filter_eq_self]
          intro t htm
          have : (t.name, t.results) ∈ o2.templates.map (fun t => (t.name, t.results)) := List.mem_map.2 ⟨t, htm, rfl⟩
          rw [hnr] at this
          simp only [List.mem_singleton, Prod.mk.injEq] at this
          simp only [this.1, h, decide_true]
    obtain ⟨t, ht⟩ : ∃ t, o2.templates = [t] := by
      match o2.templates, hnr with
      | [t], _ => exact ⟨t, rfl⟩
      | [], h => simp at h
      | _ :: _ :: _, h => simp at h
    rw [ht] at hnr hpick
    simp only [List.map_cons, List.map_nil, List.cons.injEq, and_true, Prod.mk.injEq] at hnr
    refine ⟨_, rfl, ?_⟩
    unfold Cli.results
    simp only [List.mem_cons, List.not_mem_nil, or_false] at hs
    rcases hs with h | h | h
    · rw [if_pos h]
      have : resultList o2 (Cli.outTemplates a.outTemplate) = [.list vs] := by
        unfold resultList; rw [hpick]; simp [hnr.2]
      rw [this]; exact .list h
    · rw [if_neg (by rw [h]; decide), if_pos h]
      have : resultDict o2 (Cli.outTemplates a.outTemplate) = [(c!"_root_template_", .list vs)] := by
        unfold resultDict; rw [hpick]; simp [hnr, Dict.set]
      rw [this]; exact .dictionary h
    · rw [if_neg (by rw [h]; decide), if_neg (by rw [h]; decide), if_pos h]
      have : resultFlat o2 (Cli.outTemplates a.outTemplate) = vs.flatMap flatRows := by
        have key : ∀ (F : List Val → Val → List Val), (∀ ret v, F ret v = ret ++ flatRows v) → ∀ vs pre : List Val, vs.foldl F pre = pre ++ vs.flatMap flatRows := by
          intro F hF vs
          induction vs with
          | nil => simp
          | cons v vs ih =>
            intro pre
            rw [List.foldl_cons, ih, List.flatMap_cons, ← List.append_assoc, hF]
        unfold resultFlat
        rw [hpick]
        simp only [List.foldl_cons, List.foldl_nil, hnr.2]
        exact (key _ (fun ret v => by cases v <;> rfl) vs []).trans (List.nil_append _)
      rw [this]; exact .flat h
  obtain ⟨v, hres, hshape⟩ := hres
  -- JSON
  have hrows : ∀ v ∈ vs, TextRows v := all2_right hms (fun _ _ h => h.2)
  have hready : JsonReady T.float v := by
    have hall : ∀ v ∈ vs, JsonReady T.float v := fun v h => textRows_json _ (hrows v h)
    cases hshape with
    | list _ =>
      apply jsonReady_list
      intro v hv
      simp only [List.mem_singleton] at hv
      subst hv
      exact jsonReady_list hall
    | dictionary _ =>
      obtain ⟨a, b, c, d⟩ := jsonReady_list hall
      refine ⟨?_, ?_, ?_, ?_⟩
      · rw [DeepWF]; exact ⟨by simp, ⟨a, trivial⟩⟩
      · rw [FloatsOk]; exact ⟨b, trivial⟩
      · rw [TextKeys]; exact ⟨by simp, ⟨c, trivial⟩⟩
      · rw [OneKind]; exact ⟨Or.inl (by simp), ⟨d, trivial⟩⟩
    | flat _ =>
      apply jsonReady_list
      intro v hv
      obtain ⟨w, hw, hv⟩ := List.mem_flatMap.1 hv
      have := hrows w hw
      obtain ⟨recs, hr, rfl⟩ := this
      split at hv
      · simp only [flatRows, List.mem_singleton] at hv
        subst hv
        exact textRec_json _ ⟨by simp [Dict.WF, Dict.keys], by simp⟩
      · match recs, hr, hv with
        | [r], hr, hv =>
          simp only [oneOrMany, flatRows, List.mem_singleton] at hv
          subst hv
          exact textRec_json _ (hr r (by simp))
        | [], _, hv => simp [oneOrMany, flatRows] at hv
        | r :: r2 :: rs, hr, hv =>
          have e : flatRows (oneOrMany (r :: r2 :: rs)) = (r :: r2 :: rs).map .dict := rfl
          rw [e] at hv
          obtain ⟨r', hr', rfl⟩ := List.mem_map.1 hv
          exact textRec_json _ (hr r' hr')
  obtain ⟨w1, w2, w3, w4⟩ := hready
  obtain ⟨t, hjt⟩ := (C133_defined v).1 w4
  obtain ⟨doc, hdoc, hsame⟩ := C133_equal T.float v t w1 w2 w3 hjt
  have hback : ∃ ws, CliShape ws a.structure_ doc ∧ All2 SameVal vs ws := by
    cases hshape with
    | list h =>
      obtain ⟨b, rfl, hb⟩ := same_list hsame
      cases hb with
      | cons h1 h2 =>
        cases h2
        obtain ⟨ws, rfl, hws⟩ := same_list h1
        exact ⟨ws, .list h, hws⟩
    | dictionary h =>
      have hm := C133_json T.float _ t w1 w2 hjt
      obtain ⟨doc', hd', hmir⟩ := hm
      rw [C134_unambiguous _ _ _ _ hdoc hd'] at hsame ⊢
      cases hmir with
      | @dict _ b ks h1 h2 h3 h4 =>
        have hks : ks = [.s c!"_root_template_"] := by
          have a1 : ks.Nodup := by
            refine h1.imp ?_
            intro x y hxy e
            subst e
            exact keyLt_self _ hxy
          have a2 : ∀ k, k ∈ ks ↔ k = Key.s c!"_root_template_" := by intro k; rw [h2]; simp [Dict.keys]
          match ks, a1, a2 with
          | [], _, a2 => exact absurd ((a2 _).2 rfl) (by simp)
          | [k], _, a2 => rw [(a2 k).1 (by simp)]
          | k :: k' :: r, a1, a2 =>
            have e1 := (a2 k).1 (by simp)
            have e2 := (a2 k').1 (by simp)
            rw [e1, e2] at a1
            simp at a1
        subst hks
        match b, h3 with
        | [(k, y)], h3 =>
          simp only [Dict.keys, List.map_cons, List.map_nil, jsonName, List.cons.injEq, and_true] at h3
          subst h3
          cases hsame with
          | dict _ g2 =>
            obtain ⟨ws, rfl, hws⟩ := same_list (g2 (.s c!"_root_template_") (.list vs) y (by simp [Dict.get?]) (by simp [Dict.get?]))
            exact ⟨ws, .dictionary h, hws⟩
        | [], h3 => simp [Dict.keys] at h3
        | _ :: _ :: _, h3 => simp [Dict.keys] at h3
    | flat h =>
      obtain ⟨b, rfl, hb⟩ := same_list hsame
      obtain ⟨bs, rfl, hbs⟩ := all2_flat _ _ _ hb
      have key : ∀ (vs : List Val) (bs : List (List Val)), All2 (fun v bb => All2 SameVal (flatRows v) bb) vs bs →
          ∃ ws : List Val, bs.flatten = ws.flatMap flatRows ∧ All2 SameVal vs ws := by
        intro vs bs h
        induction h with
        | nil => exact ⟨[], rfl, .nil⟩
        | cons h1 _ ih =>
          obtain ⟨w, e, hw⟩ := same_rows h1
          obtain ⟨ws, e', hws⟩ := ih
          exact ⟨w :: ws, by rw [List.flatten_cons, List.flatMap_cons, e, e'], .cons hw hws⟩
      obtain ⟨ws, e, hws⟩ := key vs bs hbs
      rw [e]
      exact ⟨ws, .flat h, hws⟩
  obtain ⟨ws, hsh, hws⟩ := hback
  refine ⟨o2, t, ws, doc, ?_, hdoc, hsh, all2_through hms hws (fun d v w h1 h2 => plainMeans_same h1.1 h1.2 h2)⟩
  unfold Cli.run
  simp only [hrv, ok_bind, hnew, hread, hload, hgive]
  unfold Cli.parse
  rw [hparse]
  simp only [hp, ok_bind]
  unfold Cli.output
  rw [if_neg hj.1]
  have hname : Cli.outputter a.outputter = c!"json" := by
    unfold Cli.outputter
    rcases hj.2 with h | h
    · rw [h]; decide
    · have : lower a.outputter ∉ Cli.supported := by
        intro hmem
        simp only [Cli.supported, List.mem_cons, List.not_mem_nil, or_false] at hmem h
        have : lower a.outputter ≠ [] := by
          intro e
          apply hj.1
          cases ho : a.outputter with
          | nil => rfl
          | cons c r => rw [ho] at e; simp [lower] at e
        rcases hmem with e | e | e | e | e
        · exact h (Or.inl e)
        · exact h (Or.inr (Or.inl e))
        · exact h (Or.inr (Or.inr (Or.inl e)))
        · exact h (Or.inr (Or.inr (Or.inr e)))
        · exact this e
      rw [if_neg this]
  rw [hname]
  unfold Cli.formatter
  simp only [if_true, pure_ok, ok_bind, hres, hjt]
  rfl

/-- C162. Variables that are no JSON raise `ValueError`, JSON that is no dictionary ends the tool, whatever the other options are. -/
theorem C162_bad_vars (C : TplCtx) (X : ExtCtx) (T : Cli.Tool) (a : Cli.Options) (h : a.vars ≠ []) :
    ((¬ ∃ v, JDocument T.float (a.vars.map (fun c => if c = '\'' then '"' else c)) v) → Cli.run C X T a = .error .valueError) ∧
    ∀ v, JDocument T.float (a.vars.map (fun c => if c = '\'' then '"' else c)) v → (∀ d, v ≠ .dict d) → Cli.run C X T a = .error .systemExit := by
  have e : Cli.doubleQuotes a.vars = a.vars.map (fun c => if c = '\'' then '"' else c) := rfl
  rw [← e]
  constructor
  · intro hn
    have : Cli.readVars T a.vars = .error .valueError := by
      unfold Cli.readVars
      rw [if_neg h]
      cases hl : Json.loads T.float (Cli.doubleQuotes a.vars) with
      | none => rfl
      | some v => exact absurd ⟨v, (Json.loads_iff _ _ _).1 hl⟩ hn
    unfold Cli.run; rw [this, err_bind]
  · intro v hv hd
    have : Cli.readVars T a.vars = .error .systemExit := by
      unfold Cli.readVars
      rw [if_neg h, (Json.loads_iff _ _ _).2 hv]
      cases v <;> first | rfl | exact absurd rfl (hd _)
    unfold Cli.run; rw [this, err_bind]

/-- C162, what does not hold: an apostrophe inside of a value of the variables breaks correct JSON, as all apostrophes become quotation marks. -/
theorem C162_apostrophe (C : TplCtx) (X : ExtCtx) (T : Cli.Tool) (a : Cli.Options) (h : a.vars = c!"{\"a\": \"it's\"}") :
    JDocument T.float a.vars (.dict [(.s c!"a", .str c!"it's")]) ∧ Cli.run C X T a = .error .valueError := by
  constructor
  · rw [h]; exact (Json.loads_iff _ _ _).1 (by rfl)
  · refine (C162_bad_vars C X T a (by rw [h]; decide)).1 ?_
    rintro ⟨v, hv⟩
    have h1 := (Json.loads_iff _ _ _).2 hv
    rw [h] at h1
    have h2 : Json.loads T.float ((c!"{\"a\": \"it's\"}").map (fun c => if c = '\'' then '"' else c)) = none := by rfl
    rw [h2] at h1
    cases h1

/-- C162, what does not hold: without the option `-t` the tool does not say so, but fails as a name has no value. -/
theorem C162_no_template (C : TplCtx) (X : ExtCtx) (T : Cli.Tool) (a : Cli.Options) (vars : Dict Str Val) (hv : CliVars T.float a.vars vars) (h : a.template = []) :
    Cli.run C X T a = .error .unboundLocal := by
  unfold Cli.run
  rw [(readVars_given hv).1, ok_bind]
  have hnew : newTTP C X (.str []) (.str []) a.dataPrefix vars = .ok ⟨[], vars, [], []⟩ := rfl
  rw [hnew, ok_bind]
  unfold Cli.readTpl
  rw [if_pos h]
  rfl

/-- C162, what does not hold: a format that the tool knows, but written in other letters, is not replaced by JSON as unknown formats are: the run, after
all the work, fails with `KeyError` (if there is no formatter of this very name). -/
theorem C162_other_letters (T : Cli.Tool) (a : Cli.Options) (o : TTPObj) (h : lower a.outputter ∈ [c!"json", c!"yaml", c!"raw", c!"pprint"])
    (h1 : a.outputter ≠ c!"json") (h2 : a.outputter ≠ c!"raw") (h3 : T.others a.outputter = none) : Cli.output T a o = .error .keyError := by
  have hne : a.outputter ≠ [] := by intro e; rw [e] at h; exact absurd h (by decide)
  have hs : lower a.outputter ∈ Cli.supported := by
    simp only [Cli.supported, List.mem_cons, List.not_mem_nil, or_false] at h ⊢
    rcases h with h | h | h | h <;> simp [h]
  unfold Cli.output Cli.outputter Cli.formatter
  rw [if_neg hne, if_pos hs, if_neg h1, if_neg h2, h3]
  rfl

/-- the hypotheses are met -/
example : lower c!"JSON" ∈ [c!"json", c!"yaml", c!"raw", c!"pprint"] ∧ c!"JSON" ≠ c!"json" ∧ c!"JSON" ≠ c!"raw" := by decide

/-- C162. Both `--one` and `--multi` end the tool. -/
theorem C162_one_and_multi (C : TplCtx) (T : Cli.Tool) (a : Cli.Options) (o : TTPObj) (h : a.one = true ∧ a.multi = true) : Cli.parse C T a o = .error .systemExit := by
  unfold Cli.parse parseMode
  simp [h.1, h.2, throw_err]

/-- C162, what does not hold: data of the option `-d` are for the template without name only; templates with names get none of them. -/
theorem C162_named_template_no_data (C : TplCtx) (a : Cli.Options) (o : TTPObj) (h : ∀ t ∈ o.templates, t.name ≠ c!"_root_template_") :
    Cli.giveData C a o = o := by
  unfold Cli.giveData
  split
  · rfl
  · have hs : ∀ t ∈ o.templates, selected c!"_root_template_" t = false := by
      intro t ht
      have := h t ht
      unfold selected
      have e : (c!"_root_template_" == c!"_all_") = false := by decide
      rw [e]
      simp [this]
    have hid : ∀ f : Tpl → Tpl, o.templates.map (fun t => if selected c!"_root_template_" t then f t else t) = o.templates := by
      intro f
      conv => rhs; rw [← List.map_id o.templates]
      apply List.map_congr_left
      intro t ht
      rw [hs t ht]; rfl
    have hc : clearInput o c!"_root_template_" = o := by
      unfold clearInput; rw [hid]
    unfold setInput
    rw [hc]
    unfold addInput
    dsimp only
    split
    · rfl
    · rw [hid]

/-- the hypotheses are met -/
example : ∀ t ∈ (⟨[{ Ex.tpl0 with name := c!"interfaces" }], [], [], []⟩ : TTPObj).templates, t.name ≠ c!"_root_template_" := by decide

/-! ## Options that meet the hypotheses -/

namespace Ex
/-- the template of the example in a file, and a file with data -/
def cworld : TTP.World := { world0 with
  isFile := fun p => decide (p = c!"t.txt") || decide (p = c!"d.txt")
  readFile := fun p => if p = c!"t.txt" then .ok ptext else if p = c!"d.txt" then .ok wtext else .error .fileNotFound }
/-- the parser with these files -/
def cctx : TplCtx := { tctx with eng := { eng0 with world := cworld } }
/-- the tool -/
def ctool : Cli.Tool := ⟨fun _ => none, fun _ => .error .valueError, id, 5242880, fun o => .ok o⟩
/-- `ttp -t t.txt -d d.txt -o JSON5 -s Flat_List -v "{'a': {'b': 1}}"` -/
def copts : Cli.Options := ⟨c!"d.txt", [], c!"t.txt", [], c!"JSON5", [], c!"Flat_List", c!"{'a': {'b': 1}}", false, false⟩
end Ex

/-- the hypotheses are met -/
example : ∃ o t ws doc, Cli.run Ex.cctx ⟨XmlText.parse, XmlText.tostring true, fun _ => none, 0⟩ Ex.ctool Ex.copts = .ok (o, some (.str t)) ∧ JDocument id t doc ∧
    CliShape ws c!"Flat_List" doc ∧ All2 (PlainMeans [Ex.wl1, Ex.wl2]) [Ex.wtext] ws := by
  have key := C162_command_line Ex.cctx ⟨XmlText.parse, XmlText.tostring true, fun _ => none, 0⟩ Ex.ctool Ex.copts [Ex.wl1, Ex.wl2] (by simp) Ex.wl_ok
    Ex.ptext Ex.ptext Ex.plines Ex.ptext_reads
    (XmlText.reread_whole (textTree Ex.ptext) (by decide +kernel) (by decide) (by simp [textTree, Xml.children]))
    (.path (.file (by decide) (by decide) (by decide))) (by decide) rfl ⟨by decide, by decide, by decide, by intro d hd; cases hd⟩ (by decide)
    [(c!"a", .dict [(.s c!"b", .int 1)])] (.some (by decide) ((Json.loads_iff _ _ _).1 (by rfl)))
    (by intro kv hkv; simp only [List.mem_singleton] at hkv; subst hkv; rintro ⟨f, e, _⟩; cases e)
    [Ex.wtext] (by decide) (.files (.file (by decide) (by decide)) (by simp) (.cons (.file (by decide) (by decide) (by decide)) .nil))
    (by intro c hc; simp only [List.mem_singleton] at hc; subst hc; exact Ex.wclear)
    ⟨rfl, Or.inr (by decide)⟩ ⟨by decide, Or.inr (by decide)⟩ (Or.inl rfl) (by decide)
  exact key

end Props
