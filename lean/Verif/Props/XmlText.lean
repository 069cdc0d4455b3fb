import Verif.Props.Extend
import Verif.Props.Plain
import Verif.Proofs.XmlText7
/-!
# C137, C138, C139, C140: XML texts
-/

namespace Props
open Py Spec TTP

/-! ## C137 -/

/-- C137: the parser reads exactly the texts that are documents of the grammar, as the elements that the grammar gives; all others are
`ParseError`. -/
theorem C137_parser (s : Str) (x : Xml) : XmlText.parse s = some x ↔ XDocument s x := XmlText.parse_iff s x

/-- C137: a text is at most one document. -/
theorem C137_unambiguous {s : Str} {x y : Xml} (hx : XDocument s x) (hy : XDocument s y) : x = y :=
  Option.some.inj (((C137_parser s x).2 hx).symm.trans ((C137_parser s y).2 hy))

/-- C137: what is read has names and characters that XML allows, attributes with different names and no empty texts; nothing follows it. -/
theorem C137_proper {s : Str} {x : Xml} (h : XmlText.parse s = some x) : ProperXml x ∧ x.tail = none := XmlText.parse_proper h

/-- a document with attributes in both quotes, references, a comment, CDATA, an empty element and a Windows line end -/
example : XDocument c!"<g a=\"1&lt;2\" b = '\"'>\r\nx &#65;<!-- c --><e/> t <![CDATA[<&]]></g>\n"
    (.mk c!"g" [(c!"a", c!"1<2"), (c!"b", c!"\"")] (some c!"\nx A") [.mk c!"e" [] none [] (some c!" t <&")] none) :=
  (C137_parser _ _).1 (XmlText.reads_eq (by decide +kernel))
/-- not documents: a wrong end tag, two elements, the same attribute twice, an `&` that is no reference, a `<` in an attribute, `]]>` in text -/
example : ∀ s ∈ [c!"<a></b>", c!"<a/><b/>", c!"<a x=\"1\" x=\"2\"/>", c!"<a>1 & 2</a>", c!"<a x=\"<\"/>", c!"<a>]]></a>", c!"<a>", c!"text"],
    ∀ x, ¬ XDocument s x := by
  intro s hs x hx
  have : (XmlText.parse s).isNone = true := by
    clear hx
    revert s; decide +kernel
  rw [(C137_parser s x).2 hx] at this
  cases this

/-! ## C138 -/

/-- C138: an element that is written is read again as it was, if its texts have no carriage returns: names, attributes (with whatever
characters), texts and elements in their order. -/
theorem C138_round_trip (ascii : Bool) {x : Xml} (hp : ProperXml x) (hr : NoReturns x) (htl : x.tail = none) :
    XmlText.parse (XmlText.tostring ascii x) = some x := XmlText.parse_tostring ascii hp hr htl

/-- C138: what was read can be written and read again. -/
theorem C138_read_write_read (ascii : Bool) {s : Str} {x : Xml} (h : XmlText.parse s = some x) (hr : NoReturns x) :
    XmlText.parse (XmlText.tostring ascii x) = some x :=
  XmlText.parse_tostring ascii (C137_proper h).1 hr (C137_proper h).2

/-- C138 with C96: a template with `extend` tags is added as the template in which every tag is replaced by the elements it stands for, although
it is written as text and read again in between. -/
theorem C138_extend (C : TplCtx) (macros : Str → Option (Str → PyM Str)) (o : TTPObj) (base name : Str) (filters : List Str) (arg text : Str)
    (hg : Given C.eng.world arg text) (htne : text ≠ []) (x : Xml) (hx : TreeOf XmlText.parse text x) (t : Option Str) (ys : List Xml)
    (h : Expands C.eng.world XmlText.parse macros true true x.text x.children t ys) (hne : ys ≠ [])
    (hr : NoReturns (.mk x.tag x.attrib t ys x.tail)) :
    ∃ N, ∀ n, N ≤ n → addTemplateAny C ⟨XmlText.parse, XmlText.tostring true, macros, n⟩ o base name filters (.str arg) =
      addTemplateXml C o base name filters (.mk x.tag x.attrib t ys x.tail) :=
  C96_extend_partial C _ _ macros o base name filters arg text hg htne x hx t ys h (XmlText.expands_reread hx h hne hr)

/-- C138: a template without `extend` tags is added as it is written. -/
theorem C138_no_extend (C : TplCtx) (macros : Str → Option (Str → PyM Str)) (limit : Nat) (o : TTPObj) (base name : Str) (filters : List Str)
    (arg text : Str) (hg : Given C.eng.world arg text) (htne : text ≠ []) (x : Xml) (hx : TreeOf XmlText.parse text x) (hs : SettledAll x.children)
    (hr : NoReturns x) :
    addTemplateAny C ⟨XmlText.parse, XmlText.tostring true, macros, limit⟩ o base name filters (.str arg) = addTemplateXml C o base name filters x := by
  refine C96_no_extend C _ o base name filters arg text hg htne x hx hs ?_
  exact .whole (XmlText.parse_tostring true (XmlText.tree_proper hx).1 hr (XmlText.tree_proper hx).2) (XmlText.tree_tag hx) (treeOf_children hx)

/-- the main template of the examples for C96 -/
example : ∃ N, ∀ n, N ≤ n → addTemplateAny Ex.xctx (Ex.xmlX n) Ex.obj0 [] c!"t" [] (.str Ex.xmain) =
    addTemplateXml Ex.xctx Ex.obj0 [] c!"t" [] (.mk c!"template" [] none [Ex.el c!"vars" [] [], Ex.grpN c!"b",
      .mk c!"group" [(c!"name", c!"n")] (some c!"\n\nport {{ p }}\n") [] (some c!"\n")] none) := by
  have hn : ∀ s : Str, '\r' ∉ s → NoReturnText (some s) := by
    intro s h t e; cases e; exact h
  have hnone : NoReturnText none := by intro t e; cases e
  exact C138_extend Ex.xctx (fun _ => none) Ex.obj0 [] c!"t" [] Ex.xmain Ex.xmain
    (.text ⟨by decide, by decide +kernel, rfl, by intro d hd; cases hd⟩) (by decide) _ (.whole Ex.xmain_tree (by decide) (by simp [Xml.children])) none _ Ex.xexpands
    (by simp) (.mk hnone (.cons (.mk (hn _ (by decide)) .nil (hn _ (by decide))) (.cons (.mk (hn _ (by decide)) .nil (hn _ (by decide)))
      (.cons (.mk (hn _ (by decide)) .nil (hn _ (by decide))) .nil))) hnone)

/-- C138, what does not hold: a carriage return in a text is written as it is, and read as a line end: the template has other lines than
it was written with. -/
theorem C138_return_lost : ∃ (w : World) (text : Str) (x y : Xml), XmlText.parse text = some x ∧ SettledAll x.children ∧
    x.children.map Xml.text = [some c!"\na\rb {{ c }}\n"] ∧ readTemplate w (Ex.xmlX 10) text = .ok y ∧
    y.children.map Xml.text = [some c!"\na\nb {{ c }}\n"] :=
  ⟨Ex.xworld, c!"<template><group name=\"g\">\na&#13;b {{ c }}\n</group></template>",
    .mk c!"template" [] none [.mk c!"group" [(c!"name", c!"g")] (some c!"\na\rb {{ c }}\n") [] none] none,
    .mk c!"template" [] none [.mk c!"group" [(c!"name", c!"g")] (some c!"\na\nb {{ c }}\n") [] none] none,
    XmlText.reads_eq (by decide +kernel), .cons (.mk (by decide) (fun _ => .nil)) .nil, rfl, XmlText.gives_eq (by decide +kernel), rfl⟩

/-! ## C139 -/

/-- C139: a text without `<`, `&` and `]]>`, with characters that XML allows and without carriage returns, is read as text. -/
theorem C139_plain {t : Str} (h1 : '<' ∉ t) (h2 : '&' ∉ t) (h3 : Lacks c!"]]>" t) (h4 : ∀ c ∈ t, XChar c) (h5 : '\r' ∉ t) :
    ReadsPlain XmlText.parse t t :=
  XmlText.reads_content h1 (XmlText.content_plain h1 h2 h3) (fun c hc => ⟨h4 c hc, by intro e; exact h5 (by rw [← e]; exact hc)⟩)

theorem escape_eq (s : Str) : xmlEscape s = XmlText.encode false (s.flatMap XmlText.escText) := by
  have : ∀ s, XmlText.encode false s = s := by
    intro s
    induction s with
    | nil => rfl
    | cons c s ih =>
      rw [XmlText.encode_cons, ih]
      rfl
  rw [this]
  rfl

/-- C139: every text of such characters can be written: with `&`, `<` and `>` by their names. -/
theorem C139_escaped {u : Str} (h4 : ∀ c ∈ u, XChar c) (h5 : '\r' ∉ u) : ReadsPlain XmlText.parse (xmlEscape u) u := by
  have hf : ∀ c ∈ u, XmlText.Fine c := fun c hc => ⟨h4 c hc, by intro e; exact h5 (by rw [← e]; exact hc)⟩
  refine XmlText.reads_content ?_ ?_ ?_
  · intro hm
    unfold xmlEscape at hm
    rw [List.mem_flatMap] at hm
    obtain ⟨c, _, hc⟩ := hm
    revert hc
    split
    · decide
    · split
      · decide
      · split
        · decide
        · rename_i h _; simpa using fun e => h e.symm
  · have := XmlText.text_content (ascii := false) h4 XContent.nil XmlText.good_nil
    rw [← escape_eq] at this
    simpa using this.1
  · rw [escape_eq]
    exact XmlText.fine_encode (XmlText.fine_escText hf)

/-- C139 with C95. The shortest way to use the parser: `ttp(data, template)` with a template that is only lines of text, without `<`, `&` and
`]]>`, then `parse`: the one result is the list with, for each text, its record, the list of its records, or an empty dictionary. -/
theorem C139_plain_template (C : TplCtx) (macros : Str → Option (Str → PyM Str)) (limit : Nat) (tpl : List TplLine) (hne : tpl ≠ [])
    (ho : ∀ l ∈ tpl, l.OK) (text : Str) (hl : LinesOf tpl text) (h1 : '<' ∉ text) (h2 : '&' ∉ text) (h3 : Lacks c!"]]>" text)
    (h4 : ∀ c ∈ text, XChar c) (h5 : '\r' ∉ text) (arg : Str) (ht : Given C.eng.world arg text ∧ arg ≠ [] ∧ text ≠ []) (base : Str)
    (vars : Dict Str Val) (hw : ∀ k dd, (k, Val.dict dd) ∈ vars → Dict.WF dd) (hv : ∀ kv ∈ vars, ¬ Getter C kv.2) (data : Str) (hd : data ≠ [])
    (calls : List (Str × Str)) (hp : ∀ q ∈ (c!"Default_Input", data) :: calls, NotAPath C.eng.world q.2 ∧ Clear tpl q.2)
    (hE : C.eng.setOrder [0, 0] = [0] ∨ (((c!"Default_Input", data) :: calls).map (·.1)).Nodup) :
    ∃ o1 o2 vs, newTTP C ⟨XmlText.parse, XmlText.tostring true, macros, limit⟩ (.str data) (.str arg) base vars = .ok o1 ∧
      parseOne C.eng (addInputs o1 (calls.map (fun q => ⟨C.eng, .str q.2, q.1, c!"_all_", []⟩))) = .ok o2 ∧
      All2 (PlainMeans tpl) (gathered ((c!"Default_Input", data) :: calls)) vs ∧ resultList o2 [] = [.list vs] := by
  refine C95_plain_template C _ tpl hne ho text text hl (C139_plain h1 h2 h3 h4 h5) arg ht ?_ base vars hw hv data hd calls hp hE
  have hc : ∀ c ∈ c!"\n" ++ text ++ c!"\n", XChar c ∧ c ≠ '\r' := by
    intro c hc
    simp only [List.mem_append] at hc
    rcases hc with (hc | hc) | hc
    · simp at hc; subst hc; exact ⟨Or.inr (Or.inl rfl), by decide⟩
    · exact ⟨h4 c hc, by intro e; exact h5 (by rw [← e]; exact hc)⟩
    · simp at hc; subst hc; exact ⟨Or.inr (Or.inl rfl), by decide⟩
  have hnone : NoReturnText none := by intro t e; cases e
  refine .whole (XmlText.parse_tostring true (XmlText.textTree_proper (fun c h => (hc c h).1)) ?_ rfl) (by show lower c!"template" = c!"template"; decide) (by simp [textTree, Xml.children])
  refine .mk hnone (.cons (.mk ?_ .nil hnone) .nil) hnone
  intro s e
  cases e
  intro hm
  exact (hc _ hm).2 rfl

/-- the hypotheses are met -/
example : ∃ o1 o2 vs, newTTP Ex.tctx ⟨XmlText.parse, XmlText.tostring true, fun _ => none, 0⟩ (.str Ex.wtext) (.str Ex.ptext) [] [] = .ok o1 ∧
    parseOne Ex.eng0 (addInputs o1 []) = .ok o2 ∧
    All2 (PlainMeans [Ex.wl1, Ex.wl2]) [Ex.wtext] vs ∧ resultList o2 [] = [.list vs] := by
  have hg : gathered [(c!"Default_Input", Ex.wtext)] = [Ex.wtext] := by decide
  rw [← hg]
  refine C139_plain_template Ex.tctx (fun _ => none) 0 [Ex.wl1, Ex.wl2] (by simp) Ex.wl_ok Ex.ptext Ex.plines (by decide) (by decide) ?_ ?_ (by decide)
    Ex.ptext ⟨.text ⟨by decide, rfl, rfl, by intro d hd; cases hd⟩, by decide, by decide⟩ [] [] (by simp) (by simp) Ex.wtext (by decide) [] ?_
    (Or.inr (by decide))
  · intro a b e
    have : ']' ∈ Ex.ptext := by rw [e]; simp
    revert this; decide
  · have : ∀ c ∈ Ex.ptext, XmlText.isChar c = true := by decide
    intro c hc
    exact (XmlText.isChar_iff c).1 (this c hc)
  · intro q hq
    simp only [List.mem_cons, List.not_mem_nil, or_false] at hq
    subst hq
    exact ⟨⟨by decide, rfl, rfl, by intro d hd; cases hd⟩, Ex.wclear⟩

/-! ## C140 -/

/-- C140: a template without `<` (and carriage returns) is loaded if and only if every `&` in it begins a reference and `]]>` is not in it: if it is
the content of an element with some text. -/
theorem C140_text_loads {t : Str} (h1 : '<' ∉ t) (h5 : '\r' ∉ t) (h4 : ∀ c ∈ t, XChar c) (u : Str) :
    constructEtree XmlText.parse t = .ok (textTree u) ↔ XContent t u [] := by
  have hf : ∀ c ∈ t, XmlText.Fine c := fun c hc => ⟨h4 c hc, by intro e; exact h5 (by rw [← e]; exact hc)⟩
  constructor
  · intro h
    cases hw : XmlText.parse (c!"<template>\n" ++ t ++ c!"\n</template>") with
    | none =>
      unfold constructEtree at h
      simp only [XmlText.parse_none_of_text h1, hw] at h
      cases h
    | some x =>
      obtain ⟨v, hv⟩ := XmlText.content_of_template h1 h5 hw
      rw [constructEtree_tree (.text (XmlText.reads_content h1 hv hf))] at h
      have : v = u := by simpa [textTree] using h
      rw [← this]; exact hv
  · intro h
    exact constructEtree_tree (.text (XmlText.reads_content h1 h hf))

/-- C140: otherwise it is `ParseError`. -/
theorem C140_text_error {t : Str} (h1 : '<' ∉ t) (h5 : '\r' ∉ t) (h : ¬ ∃ u, XContent t u []) : constructEtree XmlText.parse t = .error .parseError := by
  cases hw : XmlText.parse (c!"<template>\n" ++ t ++ c!"\n</template>") with
  | none =>
    unfold constructEtree
    simp only [XmlText.parse_none_of_text h1, hw]
    rfl
  | some x => exact absurd (XmlText.content_of_template h1 h5 hw) h

/-- a template with an `&` that is no reference -/
example : constructEtree XmlText.parse c!"a & {{ b }}" = .error .parseError := by
  refine C140_text_error (by decide) (by decide) ?_
  rintro ⟨u, h⟩
  have := (C140_text_loads (t := c!"a & {{ b }}") (by decide) (by decide) (by
    have : ∀ c ∈ c!"a & {{ b }}", XmlText.isChar c = true := by decide
    exact fun c hc => (XmlText.isChar_iff c).1 (this c hc)) u).2 h
  have e : (constructEtree XmlText.parse c!"a & {{ b }}").toOption.isSome = false := by decide +kernel
  rw [this] at e
  cases e
/-- and with references -/
example : constructEtree XmlText.parse c!"a &amp; {{ b }} &#62;" = .ok (textTree c!"a & {{ b }} >") := XmlText.gives_eq (by decide +kernel)

/-- C137. A text that has no tree raises `ParseError`, whatever the parser. -/
theorem C137_no_tree (parse : Str → Option Xml) (text : Str) :
    (∀ x, constructEtree parse text ≠ .ok x) → constructEtree parse text = .error .parseError := by
  intro h
  unfold constructEtree at h ⊢
  dsimp only at h ⊢
  have key : ∀ x : Xml, (∀ z, (if x.children.isEmpty = true then
      match parse (c!"<template><group name=\"_anonymous_\">\n" ++ text ++ c!"\n</group></template>") with
      | some y => pure y
      | none => throw .parseError
      else pure x : PyM Xml) ≠ .ok z) → (if x.children.isEmpty = true then
      match parse (c!"<template><group name=\"_anonymous_\">\n" ++ text ++ c!"\n</group></template>") with
      | some y => pure y
      | none => throw .parseError
      else pure x : PyM Xml) = .error .parseError := by
    intro x hx
    by_cases hc : x.children.isEmpty = true
    · rw [if_pos hc]
      simp only [hc, if_true] at hx
      cases hp : parse (c!"<template><group name=\"_anonymous_\">\n" ++ text ++ c!"\n</group></template>") with
      | some y => rw [hp] at hx; exact absurd rfl (hx y)
      | none => rfl
    · rw [if_neg hc] at hx; exact absurd rfl (hx x)
  cases hw : parse (c!"<template>\n" ++ text ++ c!"\n</template>") with
  | none =>
    rw [hw] at h
    dsimp only at h ⊢
    cases hp : parse text with
    | none => rfl
    | some x =>
      rw [hp] at h
      dsimp only at h ⊢
      by_cases ht : lower x.tag = c!"template"
      · rw [if_pos ht] at h ⊢; exact key x h
      · rw [if_neg ht]; rfl
  | some w =>
    rw [hw] at h
    dsimp only at h ⊢
    cases hp : parse text with
    | none => rw [hp] at h; exact key w h
    | some x =>
      rw [hp] at h
      dsimp only at h ⊢
      by_cases ht : lower x.tag = c!"template"
      · rw [if_pos ht] at h ⊢; exact key x h
      · rw [if_neg ht] at h ⊢; exact key w h

/-- the hypotheses are met: a tag that is not closed -/
example : XmlText.parse c!"<group>" = none ∧ XmlText.parse c!"<template>\n<group>\n</template>" = none :=
  ⟨Option.isNone_iff_eq_none.1 (by decide +kernel), Option.isNone_iff_eq_none.1 (by decide +kernel)⟩

end Props
