import Verif.Props.EndToEnd
import Verif.Props.Dyn
import Verif.Model.New
import Verif.Proofs.Extend
import Verif.Proofs.XmlEq
/-!
# C95: a template that is only text
-/

set_option synthInstance.maxSize 4000

namespace Props
open Py Spec TTP

theorem saveMany_plain (toInt : Bool) (k : Str) (hn : k ≠ nullName) (hk : keyOf toInt k = .s k) (recs : List (Dict Key Val))
    (hr : ∀ r ∈ recs, Dict.WF r ∧ r ≠ []) (l : List (Str × Dict Key Val)) (hl : ∀ q ∈ l, q.2 ≠ []) :
    saveMany toInt [⟨k, 0⟩] recs (.dict (keyed l)) = .ok (.dict (keyed (l ++ recs.map (fun r => (k, r))))) := by
  induction recs generalizing l with
  | nil => simp [saveMany, pure_ok]
  | cons r recs ih =>
    have h0 := hr r (by simp)
    have := ih (fun r' h' => hr r' (by simp [h'])) (l ++ [(k, r)]) (by
      intro q hq
      rcases List.mem_append.1 hq with hq | hq
      · exact hl q hq
      · simp at hq; subst hq; exact h0.2)
    simp only [saveMany, List.foldlM_cons, save_keyed toInt k hn hk l hl r h0.2 h0.1, ok_bind] at this ⊢
    rw [this]; simp

theorem keyed_one (k : Str) (recs : List (Dict Key Val)) (hne : recs ≠ []) : keyed (recs.map (fun r => (k, r))) = [(.s k, oneOrMany recs)] := by
  have h1 : ofKey (recs.map (fun r => (k, r))) k = recs := by
    unfold ofKey
    rw [List.filter_eq_self.2 (by intro q hq; obtain ⟨r, _, rfl⟩ := List.mem_map.1 hq; simp), List.map_map]
    simp [Function.comp_def]
  have h2 : ((recs.map (fun r => (k, r))).map (·.1)).eraseDups = [k] := by
    rw [List.map_map]
    obtain ⟨r, rs, rfl⟩ := List.exists_cons_of_ne_nil hne
    have : ∀ rs : List (Dict Key Val), (rs.map ((fun x : Str × Dict Key Val => x.1) ∘ fun r => (k, r))).filter (fun b => !b == k) = [] := by
      intro rs
      rw [List.filter_eq_nil_iff]
      intro a ha
      obtain ⟨r, _, rfl⟩ := List.mem_map.1 ha
      simp
    rw [List.map_cons, List.eraseDups_cons, Function.comp_apply, this]
    simp
  unfold keyed
  rw [h2]
  simp [h1]

/-- one text -/
theorem plain_one (mf : MatchFns) (gf : GroupFns) (toInt : Bool) (l : TplLine) (tpl : List TplLine) (ho : ∀ l' ∈ l :: tpl, l'.OK) (d : Str)
    (hc : Clear (l :: tpl) d) (env : Env) : ∃ v w, PlainMeans (l :: tpl) d w ∧
      (parseText mf gf toInt [] [tplGrp c!"_anonymous_" l tpl] (dataText d) env (.dict [])).map (·.results) = .ok v ∧ formDatum v = .ok w := by
  obtain ⟨reads, hr⟩ := reads_of_clear _ _ hc
  obtain ⟨recs, h1, h2, h3⟩ := parse_tpl_any mf gf toInt c!"_anonymous_" (by decide) l tpl ho (splitC '\n' d) (splitC_ne_nil '\n' d)
    (fun t ht => splitC_no_sep '\n' d t ht) reads hr env
  rw [join_splitC] at h3
  have hp : parsePath [c!"_anonymous_"] = [⟨c!"_anonymous_", 0⟩] := by decide
  have hk : keyOf toInt c!"_anonymous_" = .s c!"_anonymous_" := by cases toInt <;> decide
  have h4 := saveMany_plain toInt c!"_anonymous_" (by decide) hk recs h2 [] (by simp)
  have hk0 : keyed ([] : List (Str × Dict Key Val)) = [] := rfl
  rw [hk0, List.nil_append] at h4
  rw [hp, h4] at h3
  refine ⟨_, if recs = [] then .dict [] else oneOrMany recs, ⟨reads, recs, hr, h1, rfl⟩, h3, ?_⟩
  by_cases hne : recs = []
  · subst hne; rfl
  · rw [keyed_one _ _ hne, if_neg hne]; rfl

/-- C95. The shortest way to use the parser: `ttp(data, template)` with a template that is only lines of text, without tags - given
as text (as XML has it: `u` is written as `text`) or as the path of a file -, then `parse`.
The one result is the list with, for each text, its record, the list of its records, or an empty dictionary. Further texts can be added in
any inputs. -/
theorem C95_plain_template (C : TplCtx) (X : ExtCtx) (tpl : List TplLine) (hne : tpl ≠ []) (ho : ∀ l ∈ tpl, l.OK) (text u : Str)
    (hl : LinesOf tpl u) (hx : ReadsPlain X.parse text u) (arg : Str) (ht : Given C.eng.world arg text ∧ arg ≠ [] ∧ text ≠ [])
    (hrw : TreeOf X.parse (X.write (textTree u)) (textTree u)) (base : Str) (vars : Dict Str Val)
    (hw : ∀ k dd, (k, Val.dict dd) ∈ vars → Dict.WF dd) (hv : ∀ kv ∈ vars, ¬ Getter C kv.2) (data : Str) (hd : data ≠ [])
    (calls : List (Str × Str)) (hp : ∀ q ∈ (c!"Default_Input", data) :: calls, NotAPath C.eng.world q.2 ∧ Clear tpl q.2)
    (hE : C.eng.setOrder [0, 0] = [0] ∨ (((c!"Default_Input", data) :: calls).map (·.1)).Nodup) :
    ∃ o1 o2 vs, newTTP C X (.str data) (.str arg) base vars = .ok o1 ∧
      parseOne C.eng (addInputs o1 (calls.map (fun q => ⟨C.eng, .str q.2, q.1, c!"_all_", []⟩))) = .ok o2 ∧
      All2 (PlainMeans tpl) (gathered ((c!"Default_Input", data) :: calls)) vs ∧ resultList o2 [] = [.list vs] := by
  obtain ⟨l, tpl, rfl⟩ := List.exists_cons_of_ne_nil hne
  obtain ⟨ht, htne, htne2⟩ := ht
  generalize hgx : Xml.mk c!"group" [(c!"name", c!"_anonymous_")] (some (c!"\n" ++ u ++ c!"\n")) [] none = gx
  have hload1 : loadGroup { C.load with vars := vars } c!"." true [] none 0 0 gx = .ok (⟨tplGrp c!"_anonymous_" l tpl, c!"_anonymous_", [], []⟩, 1) := by
    rw [← loadGroup_tpl { C.load with vars := vars } c!"_anonymous_" (by decide) (by decide) (by decide) l tpl ho none, ← hgx]
    refine loadGroup_same _ _ hw _ _ (.mk (.some ?_) .nil .none) _ _ _ _ _
    rw [splitlines_tpl _ ho]
    exact .right [] (Or.inl (by simp)) hl
  generalize hgs : [(⟨0, c!"_anonymous_", [], tplGrp c!"_anonymous_" l tpl⟩ : TopGroup)] = gs
  have htops : loadTops { C.load with vars := vars } c!"." 0 0 [gx] = .ok (gs.map (fun g => (g, []))) := by
    rw [← hgs]
    simp only [loadTops, hload1, ok_bind, pure_ok, List.map_cons, List.map_nil]
  have hgs1 : gs.map (·.index) = List.range 1 := by rw [← hgs]; rfl
  have hgs2 : ∀ g ∈ gs, g.inputs = [] := by rw [← hgs]; simp
  have hall := inputGroups_all gs 1 hgs1 hgs2
  have hlen : gs.length = 1 := by rw [← hgs]; rfl
  have htag : gx.tag = c!"group" := by rw [← hgx]; rfl
  have hkind : ∀ ns : List Str, tagged ns [gx] = if c!"group" ∈ ns then [gx] else [] := by
    intro ns
    have : lower c!"group" = c!"group" := by decide
    by_cases e : c!"group" ∈ ns <;> simp [tagged, htag, this, e]
  have hload : addTemplateXml C ⟨[], vars, [], []⟩ base c!"_root_template_" [] (.mk c!"template" [] none [gx] none) =
      .ok ⟨[⟨c!"_root_template_", gs, [], vars, [], [], [], [], c!"per_input", .list []⟩], vars, [], []⟩ := by
    have hdoc : DocsOk [gx] := by
      intro x hx e
      simp only [List.mem_singleton] at hx
      subst hx
      rw [htag] at e
      exact absurd e (by decide)
    rw [addTemplateXml, loadTpl_eq, if_neg (by simp), if_pos hdoc, hkind, if_neg (by decide), loadTpls_nil, ok_bind]
    have hfm : gs.flatMap (·.inputs) = [] := by rw [List.flatMap_eq_nil_iff]; exact hgs2
    have hm1 : (gs.map (fun g => (g, ([] : List Str)))).map (·.1) = gs := by simp [List.map_map, Function.comp_def]
    have k1 : tagged [c!"v", c!"vars", c!"variables"] [gx] = [] := by rw [hkind, if_neg (by decide)]
    have k2 : tagged [c!"o", c!"out", c!"output"] [gx] = [] := by rw [hkind, if_neg (by decide)]
    have k3 : tagged [c!"lookup"] [gx] = [] := by rw [hkind, if_neg (by decide)]
    have k4 : tagged [c!"g", c!"grp", c!"group"] [gx] = [gx] := by rw [hkind, if_pos (by decide)]
    have k5 : tagged [c!"i", c!"in", c!"input"] [gx] = [] := by rw [hkind, if_neg (by decide)]
    have hrest : loadRest C vars (tplAttrs [] ⟨c!"_root_template_", base, c!"per_input", c!"."⟩) (tagsOf [gx]) =
        .ok (⟨c!"_root_template_", gs, [], vars, [], [], [], [], c!"per_input", .list []⟩,
          (updateGroups (fun o : Outputter => o.name.getD []) [] [] ((gs.map (fun g => (g, ([] : List Str)))).map (·.2))).2.2) := by
      unfold loadRest tagsOf
      simp only [tplAttrs, k1, k2, k3, k4, k5, parseVarsAll, loadOutputs, parseLookups, loadInputs, loadInputsFrom, pure_ok, ok_bind, htops, hm1, hfm, groupInputs,
        getVarFunctions_none C vars hv]
      rw [updateGroups_none _ _ (by intro n hn; simp at hn; exact hn.2)]
    rw [hrest, ok_bind, ok_bind]
    simp [TplNode.templates, TplNode.tpl]
  have hread : readTemplate C.eng.world X text = .ok (.mk c!"template" [] none [gx] none) := by
    rw [← hgx]
    exact readTemplate_settled htne2 (.text hx) (.cons (.mk (by decide) (fun _ => .nil)) .nil) hrw
  have hinit : newTTP C X (.str data) (.str arg) base vars =
      .ok (addInputs ⟨[⟨c!"_root_template_", gs, [], vars, [], [], [], [], c!"per_input", .list []⟩], vars, [], []⟩
        [⟨C.eng, .str data, c!"Default_Input", c!"_all_", []⟩]) := by
    unfold newTTP
    have e1 : ¬ Val.str arg = .str [] := by intro e; exact htne (Val.str.inj e)
    have e2 : ¬ Val.str data = .str [] := by intro e; exact hd (Val.str.inj e)
    rw [if_neg e1]
    simp only [e2, if_false, addTemplateAny, loadRead_given ht, ok_bind, addTexts, hread, hload, pure_ok]
    rfl
  have hnil : inputsOf 1 [] = [] := rfl
  have hadd := addInputs_push C.eng ⟨c!"_root_template_", gs, [], vars, [], [], [], [], c!"per_input", .list []⟩ 1 hall c!"_all_" (Or.inr rfl) vars [] []
    ((c!"Default_Input", data) :: calls) (fun q hq => (hp q hq).1) [] rfl (by
      rcases hE with h | h
      · exact Or.inr h
      · exact Or.inl ⟨fun q _ => rfl, h⟩)
  obtain ⟨o2, vs, e1, e2, e3⟩ := parseOne_each' C.eng (PlainMeans (l :: tpl)) (Clear (l :: tpl)) gs (by
      intro d hcd env
      have := plain_one C.eng.mf C.eng.gf C.eng.toInt l tpl ho d hcd env
      rw [← hgs]; exact this) c!"_root_template_" vars [] [] vars [] (((c!"Default_Input", data) :: calls).foldl push []) (by
      intro i hi s hs
      have : s ∈ gathered ((c!"Default_Input", data) :: calls) := by
        rw [← push_gathered]; exact List.mem_flatMap.2 ⟨i, hi, hs⟩
      unfold gathered at this
      obtain ⟨n, _, hn⟩ := List.mem_flatMap.1 this
      rw [List.mem_eraseDups] at hn
      obtain ⟨q, hq, e⟩ := List.mem_map.1 hn
      rw [← e]
      exact (hp q (List.mem_filter.1 hq).1).2)
  rw [push_gathered] at e2
  rw [hlen] at e1
  refine ⟨_, o2, vs, hinit, ?_, e2, ?_⟩
  · have : ∀ o : TTPObj, addInputs (addInputs o [⟨C.eng, .str data, c!"Default_Input", c!"_all_", []⟩]) (calls.map (fun q => ⟨C.eng, .str q.2, q.1, c!"_all_", []⟩)) =
        addInputs o (((c!"Default_Input", data) :: calls).map (fun q => ⟨C.eng, .str q.2, q.1, c!"_all_", []⟩)) := fun _ => rfl
    rw [this, hadd]; exact e1
  · unfold resultList pick
    rw [if_pos rfl]; exact e3

namespace Ex
/-- a template as it is written in Python, with a comment and blank lines -/
def ptext : Str := c!"\ninterface {{ name }}\n## the size\n mtu {{ mtu }}\n"
theorem ptext_reads : ReadsPlain XmlText.parse ptext ptext :=
  ⟨XmlText.parse_none (by decide +kernel), XmlText.reads_eq (by decide +kernel), XmlText.reads_eq (by decide +kernel)⟩

theorem plines : LinesOf [wl1, wl2] ptext := by
  have e : Format.splitlines (c!"\n" ++ ptext ++ c!"\n") = [[], [], c!"interface {{ name }}", c!"## the size", c!" mtu {{ mtu }}", []] := by decide
  unfold LinesOf
  rw [e]
  have blank : Meaningless [] := Or.inl (by simp)
  exact .left _ blank (.left _ blank (.both _ (.left _ (Or.inr (Or.inl ⟨[], c!" the size", rfl, by simp⟩)) (.both _ (.left _ blank .nil)))))
end Ex

/-- the hypotheses are met: two texts in two inputs -/
example : ∃ o1 o2 vs, newTTP Ex.tctx ⟨XmlText.parse, XmlText.tostring true, fun _ => none, 0⟩ (.str Ex.wtext) (.str Ex.ptext) [] [] = .ok o1 ∧
    parseOne Ex.eng0 (addInputs o1 [⟨Ex.eng0, .str c!"interface x", c!"other", c!"_all_", []⟩]) = .ok o2 ∧
    All2 (PlainMeans [Ex.wl1, Ex.wl2]) [Ex.wtext, c!"interface x"] vs ∧ resultList o2 [] = [.list vs] := by
  have hg : gathered [(c!"Default_Input", Ex.wtext), (c!"other", c!"interface x")] = [Ex.wtext, c!"interface x"] := by decide
  rw [← hg]
  refine C95_plain_template Ex.tctx ⟨XmlText.parse, XmlText.tostring true, fun _ => none, 0⟩ [Ex.wl1, Ex.wl2] (by simp) Ex.wl_ok Ex.ptext Ex.ptext Ex.plines Ex.ptext_reads
    Ex.ptext ⟨.text ⟨by decide, rfl, rfl, by intro d hd; cases hd⟩, by decide, by decide⟩
    (XmlText.reread_whole (textTree Ex.ptext) (by decide +kernel) (by decide) (by simp [textTree, Xml.children])) [] [] (by simp) (by simp) Ex.wtext (by decide) [(c!"other", c!"interface x")] ?_
    (Or.inr (by decide))
  intro q hq
  simp only [List.mem_cons, List.not_mem_nil, or_false] at hq
  rcases hq with rfl | rfl
  · exact ⟨⟨by decide, rfl, rfl, by intro d hd; cases hd⟩, Ex.wclear⟩
  · refine ⟨⟨by decide, rfl, rfl, by intro d hd; cases hd⟩, ?_⟩
    intro t ht
    have : t = c!"interface x" := by
      have e : splitC '\n' c!"interface x" = [c!"interface x"] := by decide
      rw [e] at ht; simpa using ht
    subst this
    refine ⟨some (0, [(c!"name", c!"x")]), ⟨Ex.wl1, rfl, (Ex.fits_iff Ex.wl1 (Ex.wl_ok _ (by simp)) _ (by decide) _).2 (by decide +kernel)⟩, ?_⟩
    intro i l v hi hf
    match i with
    | 0 => rfl
    | 1 =>
      simp only [List.getElem?_cons_succ, List.getElem?_cons_zero, Option.some.injEq] at hi
      subst hi
      rw [Ex.fits_iff Ex.wl2 (Ex.wl_ok _ (by simp)) _ (by decide),
        show (Re.finditer (TplRe Ex.wl2) (nlText [c!"interface x"])).map (·.caps) = [] from by decide +kernel] at hf
      cases hf
    | k + 2 => cases hi

/-- what the example means: two records are a list -/
example : PlainMeans [Ex.wl1, Ex.wl2] Ex.wtext (.list [
    .dict [(.s c!"name", .str c!"a"), (.s c!"mtu", .str c!"1")], .dict [(.s c!"name", .str c!"b")]]) := by
  refine ⟨Ex.wreads, [[(.s c!"name", .str c!"a"), (.s c!"mtu", .str c!"1")], [(.s c!"name", .str c!"b")]], Ex.wreads_ok, ?_, rfl⟩
  refine .cons ?_ (.cons ?_ .nil)
  · intro k
    simp only [recOf, Dict.get?, linesOf, evsOf, List.map_cons, List.map_nil, List.cons_append, List.nil_append, List.findSome?_cons, List.findSome?_nil]
    by_cases h1 : Key.s c!"name" = k
    · simp [h1]
    · by_cases h2 : Key.s c!"mtu" = k <;> simp [h1, h2]
  · intro k
    simp only [recOf, Dict.get?, linesOf, evsOf, List.map_cons, List.map_nil, List.cons_append, List.nil_append, List.findSome?_cons, List.findSome?_nil]
    by_cases h1 : Key.s c!"name" = k <;> simp [h1]

end Props
