import Verif.Props.Tags
import Verif.Proofs.Extend
import Verif.Proofs.XmlEq
/-!
# C96, C97: extend tags
-/

namespace Props
open Py Spec TTP

/-- C96, what holds: a template with `extend` tags - given as text or as a path - is added as the template in which every tag is replaced by
the elements it stands for: those of the named template that its attributes choose, with the tags in them replaced in the same way; a named
template that is a text without tags is added to the text of its group. The result is written and read again (C138: this changes nothing but
carriage returns). Missing, because it is false of the code: tags that stand for
nothing, elements with tags right after a text without tags, tags in groups that are written `g` or `grp` (see below). -/
theorem C96_extend_partial (C : TplCtx) (parse : Str → Option Xml) (write : Xml → Str) (macros : Str → Option (Str → PyM Str)) (o : TTPObj)
    (base name : Str) (filters : List Str) (arg text : Str) (hg : Given C.eng.world arg text) (htne : text ≠ []) (x : Xml) (hx : TreeOf parse text x)
    (t : Option Str) (ys : List Xml) (h : Expands C.eng.world parse macros true true x.text x.children t ys)
    (hw : TreeOf parse (write (.mk x.tag x.attrib t ys x.tail)) (.mk x.tag x.attrib t ys x.tail)) :
    ∃ N, ∀ n, N ≤ n → addTemplateAny C ⟨parse, write, macros, n⟩ o base name filters (.str arg) =
      addTemplateXml C o base name filters (.mk x.tag x.attrib t ys x.tail) := by
  obtain ⟨N, hN⟩ := handle_expands (write := write) h
  refine ⟨N, fun n hn => ?_⟩
  have e := hN n hn false (fun _ => rfl) x.text t (fun _ => ⟨rfl, rfl⟩) (by intro e; cases e) []
  have hr : readTemplate C.eng.world ⟨parse, write, macros, n⟩ text = .ok (.mk x.tag x.attrib t ys x.tail) := by
    unfold readTemplate
    rw [if_neg htne, constructEtree_tree (parse := parse) hx, ok_bind]
    have := handle_limit C.eng.world ⟨parse, write, macros, 0⟩ n n
    dsimp only at this ⊢
    rw [this, e, ok_bind, List.nil_append, constructEtree_tree (parse := parse) hw]
  unfold addTemplateAny
  simp only [loadRead_given hg, ok_bind, addTexts, hr]
  cases addTemplateXml C o base name filters (.mk x.tag x.attrib t ys x.tail) <;> rfl

/-- C96: a template without `extend` tags (in the template itself and in its `group` tags) is added as it is. -/
theorem C96_no_extend (C : TplCtx) (X : ExtCtx) (o : TTPObj) (base name : Str) (filters : List Str) (arg text : Str)
    (hg : Given C.eng.world arg text) (htne : text ≠ []) (x : Xml) (hx : TreeOf X.parse text x) (hs : SettledAll x.children)
    (hw : TreeOf X.parse (X.write x) x) : addTemplateAny C X o base name filters (.str arg) = addTemplateXml C o base name filters x := by
  unfold addTemplateAny
  simp only [loadRead_given hg, ok_bind, addTexts, readTemplate_settled htne hx hs hw]
  cases addTemplateXml C o base name filters x <;> rfl

/-- C96: if the first `extend` tag names nothing that exists, the template is not loaded: `FileNotFoundError`. -/
theorem C96_missing_file (C : TplCtx) (X : ExtCtx) (hl : 0 < X.limit) (o : TTPObj) (base name : Str) (filters : List Str) (arg text : Str)
    (hg : Given C.eng.world arg text) (htne : text ≠ []) (x : Xml) (hx : TreeOf X.parse text x) (pre post : List Xml) (a : Dict Str Str) (s : Option Str)
    (cs : List Xml) (tl : Option Str) (hc : x.children = pre ++ .mk c!"extend" a s cs tl :: post) (hs : SettledAll pre)
    (hp : NotAPath C.eng.world ((Dict.get? a c!"template").getD [])) :
    addTemplateAny C X o base name filters (.str arg) = .error .fileNotFound := by
  obtain ⟨n, hn⟩ : ∃ n, X.limit = n + 1 := ⟨X.limit - 1, by omega⟩
  have hr : readTemplate C.eng.world X text = .error .fileNotFound := by
    unfold readTemplate
    rw [if_neg htne, constructEtree_tree hx, ok_bind, hc, hn, handle_settledAll _ _ _ _ _ _ hs]
    have : handleExtend C.eng.world X (n + 1) false true ([] ++ pre) (.mk c!"extend" a s cs tl :: post) x.text = .error .fileNotFound := by
      show extendLoop _ false true _ _ _ = _
      rw [loop_cons, if_pos rfl]
      have e : extendTree C.eng.world X (Xml.mk c!"extend" a s cs tl).attrib = .error .fileNotFound := by
        unfold extendTree
        have ha : (Xml.mk c!"extend" a s cs tl).attrib = a := rfl
        rw [ha]
        dsimp only
        rw [loadRead_text _ _ hp, ok_bind]
        dsimp only
        rw [if_pos rfl]
        rfl
      rw [e]; rfl
    rw [this]; rfl
  unfold addTemplateAny
  simp only [loadRead_given hg, ok_bind, addTexts, hr]
  rfl

/-- C97: a template never loads if it extends a template that extends a template and so on without end, in particular one that
extends itself. -/
theorem C97_endless_extension (C : TplCtx) (parse : Str → Option Xml) (write : Xml → Str) (macros : Str → Option (Str → PyM Str)) (endless : Str → Prop)
    (hbad : ∀ p, endless p → ∃ text e pre q s cs tl post, FileText C.eng.world p text ∧ text ≠ p ∧ text ≠ [] ∧ TreeOf parse text e ∧
      e.children = pre ++ .mk c!"extend" [(c!"template", q)] s cs tl :: post ∧ SettledAll pre ∧ endless q) (p : Str) (hp : endless p)
    (n : Nat) (o : TTPObj) (base name : Str) (filters : List Str) :
    addTemplateAny C ⟨parse, write, macros, n⟩ o base name filters (.str p) = .error .runtimeError := by
  generalize hw : C.eng.world = w at hbad
  have key : ∀ n (isList top : Bool) (done pre post : List Xml) (q : Str) (s : Option Str) (cs : List Xml) (tl t : Option Str), endless q → SettledAll pre →
      handleExtend w ⟨parse, write, macros, 0⟩ n isList top done (pre ++ .mk c!"extend" [(c!"template", q)] s cs tl :: post) t = .error .runtimeError := by
    intro n
    induction n with
    | zero =>
      intro isList top done pre post q s cs tl t hq hpre
      rw [handle_settledAll w _ 0 isList top pre hpre]
      show extendLoop _ isList top _ _ t = _
      rw [loop_cons, if_pos rfl]
      rfl
    | succ n ih =>
      intro isList top done pre post q s cs tl t hq hpre
      rw [handle_settledAll w _ (n + 1) isList top pre hpre]
      show extendLoop _ isList top _ _ t = _
      rw [loop_cons, if_pos rfl]
      obtain ⟨text, e, pre2, q2, s2, cs2, tl2, post2, hft, htp, _, htree, hc, hpre2, hq2⟩ := hbad q hq
      have he : Extended w parse macros [(c!"template", q)] e :=
        .mk rfl hft htp (Or.inl ⟨rfl, by intro m hm; simp [Dict.get?] at hm⟩) htree
      have e4 : extendTree w ⟨parse, write, macros, 0⟩ (Xml.mk c!"extend" [(c!"template", q)] s cs tl).attrib = .ok e := extendTree_of (X := ⟨parse, write, macros, 0⟩) he
      have hplain : ∀ u, ¬ PlainTree e u := by
        rintro u ⟨g, h1, h2, _⟩
        rw [hc] at h1
        match pre2, h1 with
        | [], h1 =>
          simp only [List.nil_append, List.cons.injEq] at h1
          rw [← h1.1] at h2
          revert h2
          simp [Xml.attrib, Dict.get?]
        | y :: pre2, h1 => simp at h1
      simp only [e4, ok_bind, anonymousText_none hplain]
      have hattr : (Xml.mk c!"extend" [(c!"template", q)] s cs tl).attrib = [(c!"template", q)] := rfl
      rw [hattr]
      cases top with
      | true =>
        have : filterExtend true [(c!"template", q)] e.children = e.children := rfl
        rw [this, hc, ih _ _ _ _ _ _ _ _ _ _ hq2 hpre2]
        rfl
      | false =>
        have hfe : filterExtend false [(c!"template", q)] e.children = filterNested [] 0 e.children := rfl
        have hsplit : ∀ (l l2 : List Xml) (k : Nat), ∃ l', filterNested [] k (l ++ l2) = l' ++ filterNested [] k l2 ∧ (SettledAll l → SettledAll l') := by
          intro l
          induction l with
          | nil => intro l2 k; exact ⟨[], rfl, fun h => h⟩
          | cons y l ihl =>
            intro l2 k
            obtain ⟨l', e1, e2⟩ := ihl l2 k
            rw [List.cons_append, filterNested.eq_def]
            dsimp only
            by_cases hy : y.tag ∈ [c!"g", c!"grp", c!"group"]
            · rw [if_pos hy, if_neg (by simp), e1]
              exact ⟨y :: l', by simp, fun h => by cases h with | cons h1 h2 => exact .cons h1 (e2 h2)⟩
            · rw [if_neg hy]
              by_cases hy2 : y.tag = c!"extend"
              · rw [if_pos hy2, e1]
                exact ⟨y :: l', by simp, fun h => by cases h with | cons h1 h2 => exact .cons h1 (e2 h2)⟩
              · rw [if_neg hy2, e1]
                exact ⟨l', rfl, fun h => by cases h with | cons h1 h2 => exact e2 h2⟩
        obtain ⟨l', e1, e2⟩ := hsplit pre2 (.mk c!"extend" [(c!"template", q2)] s2 cs2 tl2 :: post2) 0
        have e3 : filterNested [] 0 (.mk c!"extend" [(c!"template", q2)] s2 cs2 tl2 :: post2) =
            .mk c!"extend" [(c!"template", q2)] s2 cs2 tl2 :: filterNested [] 0 post2 := by
          rw [filterNested.eq_def]
          dsimp only
          have ht : (Xml.mk c!"extend" [(c!"template", q2)] s2 cs2 tl2).tag = c!"extend" := rfl
          rw [ht, if_neg (by decide), if_pos rfl]
        rw [hfe, hc, e1, e3, ih _ _ _ _ _ _ _ _ _ _ hq2 (e2 hpre2)]
        rfl
  obtain ⟨text, e, pre, q, s, cs, tl, post, hf, _, htne, htree, hc, hpre, hq⟩ := hbad p hp
  unfold addTemplateAny
  simp only [hw, loadRead_file hf, ok_bind, addTexts]
  have : readTemplate w ⟨parse, write, macros, n⟩ text = .error .runtimeError := by
    unfold readTemplate
    rw [if_neg htne, constructEtree_tree (parse := parse) htree, ok_bind]
    have hl := handle_limit w ⟨parse, write, macros, 0⟩ n n
    dsimp only at hl ⊢
    rw [hl, hc, key n false true [] pre post q s cs tl _ hq hpre]
    rfl
  rw [this]
  rfl

namespace Ex
/-- an element of a template -/
def el (tag : Str) (a : Dict Str Str) (cs : List Xml) : Xml := .mk tag a (some c!"\n") cs (some c!"\n")
/-- an `extend` tag for a file -/
def ext (p : Str) : Xml := el c!"extend" [(c!"template", p)] []
/-- a group with this name -/
def grpN (n : Str) : Xml := el c!"group" [(c!"name", n)] []

/-- a template with variables and two groups -/
def xlib : Str := c!"<template><vars>\n</vars>\n<group name=\"a\">\n</group>\n<group name=\"b\">\n</group>\n</template>"
/-- a template with a group that extends the text -/
def xnest : Str := c!"<template><group name=\"n\">\n<extend template=\"text\">\n</extend>\n</group>\n</template>"
/-- a template that extends itself -/
def xloop : Str := c!"<template><group name=\"a\">\n</group>\n<extend template=\"loop\">\n</extend>\n</template>"
/-- a template that extends the first two -/
def xmain : Str := c!"<template><extend template=\"lib\" groups=\"1, c\">\n</extend>\n<extend template=\"nest\">\n</extend>\n</template>"
/-- a template that extends what is not there -/
def xnone : Str := c!"<template><group name=\"a\">\n</group>\n<extend template=\"none\">\n</extend>\n</template>"
/-- files: variables and two groups, a group that extends the text, a text, a template that extends itself -/
def xfiles : List (Str × Str) := [(c!"lib", xlib), (c!"nest", xnest), (c!"text", c!"port {{ p }}"), (c!"loop", xloop)]
/-- the trees of the files and of the main template -/
def xparse : Str → Option Xml := XmlText.parse
/-- the parser and the writer -/
def xmlX (n : Nat) : ExtCtx := ⟨XmlText.parse, XmlText.tostring true, fun _ => none, n⟩

theorem xlib_tree : xparse xlib = some (.mk c!"template" [] none [el c!"vars" [] [], grpN c!"a", grpN c!"b"] none) :=
  XmlText.reads_eq (by decide +kernel)
theorem xnest_tree : xparse xnest = some (.mk c!"template" [] none [el c!"group" [(c!"name", c!"n")] [ext c!"text"]] none) :=
  XmlText.reads_eq (by decide +kernel)
theorem xloop_tree : xparse xloop = some (.mk c!"template" [] none [grpN c!"a", ext c!"loop"] none) := XmlText.reads_eq (by decide +kernel)
theorem xmain_tree : xparse xmain = some (.mk c!"template" [] none
    [el c!"extend" [(c!"template", c!"lib"), (c!"groups", c!"1, c")] [], ext c!"nest"] none) := XmlText.reads_eq (by decide +kernel)
theorem xnone_tree : xparse xnone = some (.mk c!"template" [] none [grpN c!"a", ext c!"none"] none) := XmlText.reads_eq (by decide +kernel)

/-- the file system -/
def xworld : World := { world0 with
  isFile := fun p => (Dict.get? xfiles p).isSome
  readFile := fun p => match Dict.get? xfiles p with
    | some c => .ok c
    | none => .error .fileNotFound }
/-- the context with these files -/
def xctx : TplCtx := { tctx with eng := { tctx.eng with world := xworld } }

theorem xfile (p c : Str) (h : (p, c) ∈ xfiles) : FileText xworld p c := by
  simp only [xfiles, List.mem_cons, List.not_mem_nil, or_false, Prod.mk.injEq] at h
  rcases h with ⟨rfl, rfl⟩ | ⟨rfl, rfl⟩ | ⟨rfl, rfl⟩ | ⟨rfl, rfl⟩ <;> exact .file (by decide) (by decide) rfl

theorem xreads : ReadsPlain xparse c!"port {{ p }}" c!"port {{ p }}" :=
  ⟨XmlText.parse_none (by decide +kernel), XmlText.reads_eq (by decide +kernel), XmlText.reads_eq (by decide +kernel)⟩

/-- what the main template stands for: variables and the second group of `lib`, and the group of `nest` with the text in it -/
theorem xexpands : Expands xworld xparse (fun _ => none) true true none
    [el c!"extend" [(c!"template", c!"lib"), (c!"groups", c!"1, c")] [], ext c!"nest"] none
    ([el c!"vars" [] [], grpN c!"b"] ++ ([.mk c!"group" [(c!"name", c!"n")] (some c!"\n\nport {{ p }}\n") [] (some c!"\n")] ++ [])) := by
  have grp : ∀ n, Expands xworld xparse (fun _ => none) false false none [grpN n] none [grpN n] := fun n => .group .nil .nil
  refine .extend (e := .mk c!"template" [] none [el c!"vars" [] [], grpN c!"a", grpN c!"b"] none)
    (ks := [el c!"vars" [] [], grpN c!"b"]) ?_ ?_ ?_ (by simp) (.other (by decide) (by decide) (grp _)) ?_
  · refine .mk (p := c!"lib") (c := xlib) (s := xlib) rfl (xfile _ _ (by decide)) (by decide) (Or.inl ⟨rfl, by intro m hm; simp [Dict.get?] at hm⟩) ?_
    exact .whole xlib_tree (by decide) (by simp [Xml.children])
  · rintro s ⟨g, h, _⟩; simp [Xml.children] at h
  · have := filterExtend_taken true [(c!"template", c!"lib"), (c!"groups", c!"1, c")] c!"lib" rfl [el c!"vars" [] [], grpN c!"a", grpN c!"b"]
    exact this
  · refine .extend (e := .mk c!"template" [] none [el c!"group" [(c!"name", c!"n")] [ext c!"text"]] none)
      (ks := [el c!"group" [(c!"name", c!"n")] [ext c!"text"]]) ?_ ?_ ?_ (by simp) ?_ .nil
    · refine .mk (p := c!"nest") (c := xnest) (s := xnest) rfl (xfile _ _ (by decide)) (by decide) (Or.inl ⟨rfl, by intro m hm; simp [Dict.get?] at hm⟩) ?_
      exact .whole xnest_tree (by decide) (by simp [Xml.children])
    · rintro s ⟨g, h, h2, _⟩
      simp only [Xml.children, List.cons.injEq, and_true] at h
      rw [← h] at h2
      revert h2; decide
    · exact filterExtend_taken true [(c!"template", c!"nest")] c!"nest" rfl [el c!"group" [(c!"name", c!"n")] [ext c!"text"]]
    · refine .group ?_ .nil
      refine .plain (e := .mk c!"template" [] none [.mk c!"group" [(c!"name", c!"_anonymous_")] (some c!"\nport {{ p }}\n") [] none] none) (t0 := c!"\n") (u := c!"\nport {{ p }}\n") ?_ ⟨.mk c!"group" [(c!"name", c!"_anonymous_")] (some c!"\nport {{ p }}\n") [] none, rfl, rfl, rfl⟩ rfl (by intro y ys h; cases h) .nil
      exact .mk (p := c!"text") (c := c!"port {{ p }}") (s := c!"port {{ p }}") rfl (xfile _ _ (by decide)) (by decide)
        (Or.inl ⟨rfl, by intro m hm; simp [Dict.get?] at hm⟩) (.text xreads)
end Ex

/-- the hypotheses are met: variables, one of two groups, and a text in a group -/
example : ∃ N, ∀ n, N ≤ n → addTemplateAny Ex.xctx (Ex.xmlX n) Ex.obj0 [] c!"t" [] (.str Ex.xmain) =
    addTemplateXml Ex.xctx Ex.obj0 [] c!"t" [] (.mk c!"template" [] none [Ex.el c!"vars" [] [], Ex.grpN c!"b",
      .mk c!"group" [(c!"name", c!"n")] (some c!"\n\nport {{ p }}\n") [] (some c!"\n")] none) :=
  C96_extend_partial Ex.xctx Ex.xparse (XmlText.tostring true) (fun _ => none) Ex.obj0 [] c!"t" [] Ex.xmain Ex.xmain
    (.text ⟨by decide, by decide +kernel, rfl, by intro d hd; cases hd⟩) (by decide) _ (.whole Ex.xmain_tree (by decide) (by simp [Xml.children])) none _ Ex.xexpands
    (.whole (XmlText.reads_eq (by decide +kernel)) (by decide) (by simp [Xml.children]))

/-- no `extend` tags -/
example : addTemplateAny Ex.xctx (Ex.xmlX 0) Ex.obj0 [] c!"t" [] (.str Ex.xlib) =
    addTemplateXml Ex.xctx Ex.obj0 [] c!"t" [] (.mk c!"template" [] none [Ex.el c!"vars" [] [], Ex.grpN c!"a", Ex.grpN c!"b"] none) :=
  C96_no_extend Ex.xctx (Ex.xmlX 0) Ex.obj0 [] c!"t" [] Ex.xlib Ex.xlib (.text ⟨by decide, by decide +kernel, rfl, by intro d hd; cases hd⟩) (by decide) _
    (.whole Ex.xlib_tree (by decide) (by simp [Xml.children]))
    (.cons (.mk (by decide) (fun h => absurd h (by decide))) (.cons (.mk (by decide) (fun _ => .nil)) (.cons (.mk (by decide) (fun _ => .nil)) .nil)))
    (XmlText.reread_whole _ (by decide +kernel) (by decide) (by simp [Xml.children]))

/-- no such file -/
example : addTemplateAny Ex.xctx (Ex.xmlX 1) Ex.obj0 [] c!"t" [] (.str Ex.xnone) = .error .fileNotFound :=
  C96_missing_file Ex.xctx _ (by decide) _ _ _ _ _ Ex.xnone (.text ⟨by decide, by decide +kernel, rfl, by intro d hd; cases hd⟩) (by decide) _
    (.whole Ex.xnone_tree (by decide) (by simp [Xml.children])) [Ex.grpN c!"a"] [] _ _ _ _ rfl (.cons (.mk (by decide) (fun _ => .nil)) .nil)
    ⟨by decide, by decide, rfl, by intro d hd; cases hd⟩

/-- the template `loop` extends itself -/
example (n : Nat) : addTemplateAny Ex.xctx (Ex.xmlX n) Ex.obj0 [] c!"t" [] (.str c!"loop") = .error .runtimeError := by
  refine C97_endless_extension Ex.xctx Ex.xparse (XmlText.tostring true) _ (fun p => p = c!"loop") ?_ _ rfl n _ _ _ _
  rintro p rfl
  refine ⟨Ex.xloop, _, [Ex.grpN c!"a"], c!"loop", _, _, _, [], Ex.xfile _ _ (by decide), by decide, by decide,
    .whole Ex.xloop_tree (by decide) (by simp [Xml.children]), rfl, ?_, rfl⟩
  exact .cons (.mk (by decide) (fun _ => .nil)) .nil

/-- C96, what does not hold: after a text without tags, the next `extend` tag is left as it is - and then ignored. -/
theorem C96_tag_after_text_ignored : ∃ (w : World) (text : Str) (x : Xml), XmlText.parse text = some x ∧
    x.children = [Ex.ext c!"text", Ex.ext c!"lib"] ∧ (∃ e, Extended w XmlText.parse (fun _ => none) [(c!"template", c!"lib")] e ∧ e.children.length = 3) ∧
    readTemplate w (Ex.xmlX 10) text = .ok (.mk c!"template" [] (some c!"\n\nport {{ p }}\n") [Ex.ext c!"lib"] none) :=
  ⟨Ex.xworld, c!"<template>\n<extend template=\"text\">\n</extend>\n<extend template=\"lib\">\n</extend>\n</template>",
    .mk c!"template" [] (some c!"\n") [Ex.ext c!"text", Ex.ext c!"lib"] none, XmlText.reads_eq (by decide +kernel), rfl,
    ⟨_, .mk rfl (Ex.xfile _ Ex.xlib (by decide)) (by decide) (Or.inl ⟨rfl, by intro m hm; simp [Dict.get?] at hm⟩)
      (.whole Ex.xlib_tree (by decide) (by simp [Xml.children])), rfl⟩, XmlText.gives_eq (by decide +kernel)⟩

/-- C96, what does not hold: template lines after an `extend` tag in a group are lost. -/
theorem C96_lines_after_tag_lost : ∃ (w : World) (text : Str) (x : Xml), XmlText.parse text = some x ∧
    x.children = [.mk c!"group" [(c!"name", c!"g")] (some c!"\nport {{ p }}\n")
      [.mk c!"extend" [(c!"template", c!"lib"), (c!"groups", c!"a")] none [] (some c!"\nvlan {{ v }}\n")] (some c!"\n")] ∧
    readTemplate w (Ex.xmlX 10) text = .ok (.mk c!"template" [] (some c!"\n")
      [.mk c!"group" [(c!"name", c!"g")] (some c!"\nport {{ p }}\n") [Ex.grpN c!"a"] (some c!"\n")] none) :=
  ⟨Ex.xworld, c!"<template>\n<group name=\"g\">\nport {{ p }}\n<extend template=\"lib\" groups=\"a\"/>\nvlan {{ v }}\n</group>\n</template>",
    .mk c!"template" [] (some c!"\n") [.mk c!"group" [(c!"name", c!"g")] (some c!"\nport {{ p }}\n")
      [.mk c!"extend" [(c!"template", c!"lib"), (c!"groups", c!"a")] none [] (some c!"\nvlan {{ v }}\n")] (some c!"\n")] none,
    XmlText.reads_eq (by decide +kernel), rfl, XmlText.gives_eq (by decide +kernel)⟩

/-- C96, what does not hold: in a group that is written `g`, `extend` tags are not handled. -/
theorem C96_short_group_tag : ∃ (w : World) (text : Str) (x : Xml), XmlText.parse text = some x ∧
    x.children = [Ex.el c!"g" [(c!"name", c!"g")] [Ex.ext c!"lib"]] ∧ readTemplate w (Ex.xmlX 10) text = .ok x :=
  ⟨Ex.xworld, c!"<template>\n<g name=\"g\">\n<extend template=\"lib\">\n</extend>\n</g>\n</template>",
    .mk c!"template" [] (some c!"\n") [Ex.el c!"g" [(c!"name", c!"g")] [Ex.ext c!"lib"]] none,
    XmlText.reads_eq (by decide +kernel), rfl, XmlText.gives_eq (by decide +kernel)⟩

/-- C96, what does not hold: if nothing is chosen of a template, the tag after it is not handled. -/
theorem C96_tag_after_nothing_ignored : ∃ (w : World) (text : Str) (x : Xml), XmlText.parse text = some x ∧
    x.children = [Ex.el c!"extend" [(c!"template", c!"nest"), (c!"groups", c!"x")] [], Ex.ext c!"lib"] ∧
    readTemplate w (Ex.xmlX 10) text = .ok (.mk c!"template" [] (some c!"\n") [Ex.ext c!"lib"] none) :=
  ⟨Ex.xworld, c!"<template>\n<extend template=\"nest\" groups=\"x\">\n</extend>\n<extend template=\"lib\">\n</extend>\n</template>",
    .mk c!"template" [] (some c!"\n") [Ex.el c!"extend" [(c!"template", c!"nest"), (c!"groups", c!"x")] [], Ex.ext c!"lib"] none,
    XmlText.reads_eq (by decide +kernel), rfl, XmlText.gives_eq (by decide +kernel)⟩

/-- C96, what does not hold: a template that is only an `extend` tag for a text without tags is loaded as a group without lines of its
own: the lines are in a `template` element inside of it. -/
theorem C96_only_text_lost : ∃ (w : World) (text : Str) (x : Xml), XmlText.parse text = some x ∧ x.children = [Ex.ext c!"text"] ∧
    readTemplate w (Ex.xmlX 10) text = .ok (.mk c!"template" [] none [.mk c!"group" [(c!"name", c!"_anonymous_")] (some c!"\n")
      [.mk c!"template" [] (some c!"\n\nport {{ p }}\n") [] (some c!"\n")] none] none) :=
  ⟨Ex.xworld, c!"<template>\n<extend template=\"text\">\n</extend>\n</template>", .mk c!"template" [] (some c!"\n") [Ex.ext c!"text"] none,
    XmlText.reads_eq (by decide +kernel), rfl, XmlText.gives_eq (by decide +kernel)⟩

end Props
