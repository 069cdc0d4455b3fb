import Verif.Props.Extend
import Verif.Proofs.Inner5
/-!
# C141, C142: templates inside of templates
-/

namespace TTP
open Py Spec

theorem utf8_eq (c : Char) : (String.utf8EncodeChar c).map UInt8.toNat = utf8 c := by
  unfold String.utf8EncodeChar utf8
  have h : c.val.toNat = c.toNat := rfl
  have hlt : c.toNat < 0x110000 := by
    have := c.valid
    simp only [UInt32.isValidChar, Nat.isValidChar] at this
    rw [h] at this
    omega
  simp only [h]
  by_cases h1 : c.toNat < 0x80
  · rw [if_pos (by omega), if_pos h1]; simp; omega
  · rw [if_neg (by omega), if_neg h1]
    by_cases h2 : c.toNat < 0x800
    · rw [if_pos (by omega), if_pos h2]; simp; omega
    · rw [if_neg (by omega), if_neg h2]
      by_cases h3 : c.toNat < 0x10000
      · rw [if_pos (by omega), if_pos h3]; simp; omega
      · rw [if_neg (by omega), if_neg h3]; simp; omega

theorem utf8_byte (c : Char) (b : Nat) (h : b ∈ utf8 c) : b < 256 := by
  rw [← utf8_eq] at h
  obtain ⟨x, _, rfl⟩ := List.mem_map.1 h
  exact UInt8.toNat_lt x

theorem hexDigit_of (n : Nat) (h : n < 16) : HexOf (hexDigit n) n := by
  have : ∀ m : Fin 16, ('0' ≤ hexDigit m.val ∧ hexDigit m.val ≤ '9' ∧ m.val = (hexDigit m.val).toNat - '0'.toNat) ∨
      ('a' ≤ hexDigit m.val ∧ hexDigit m.val ≤ 'f' ∧ m.val = (hexDigit m.val).toNat - 'a'.toNat + 10) := by decide
  exact this ⟨n, h⟩

theorem reprByte_lit (q : Char) (hq : q = '\'' ∨ q = '"') (b : Nat) (hb : b < 256) (s : Str) (bs : List Nat) (h : BytesLit q s bs) :
    BytesLit q (reprByte q b ++ s) (b :: bs) := by
  unfold reprByte
  by_cases h1 : b = 92
  · rw [if_pos h1, h1]; exact .back h
  rw [if_neg h1]
  by_cases h2 : b = q.toNat
  · rw [if_pos h2, h2]; exact .quote hq h
  rw [if_neg h2]
  by_cases h3 : b = 9
  · rw [if_pos h3, h3]; exact .tab h
  rw [if_neg h3]
  by_cases h4 : b = 10
  · rw [if_pos h4, h4]; exact .newline h
  rw [if_neg h4]
  by_cases h5 : b = 13
  · rw [if_pos h5, h5]; exact .back_r h
  rw [if_neg h5]
  by_cases h6 : 32 ≤ b ∧ b < 127
  · rw [if_pos h6]
    have e : (Char.ofNat b).toNat = b := by
      have : ∀ m : Fin 127, (Char.ofNat m.val).toNat = m.val := by decide
      exact this ⟨b, h6.2⟩
    have := BytesLit.char (q := q) (c := Char.ofNat b) (by rw [e]; exact h6.1) (by rw [e]; exact h6.2)
      (by intro e2; rw [e2] at e; exact h1 e.symm) (by intro e2; rw [e2] at e; exact h2 e.symm) h
    rw [e] at this
    exact this
  · rw [if_neg h6]
    have := BytesLit.hex (q := q) (hexDigit_of (b / 16) (by omega)) (hexDigit_of (b % 16) (by omega)) h
    rw [show 16 * (b / 16) + b % 16 = b by omega] at this
    exact this

theorem reprText_lit (q : Char) (hq : q = '\'' ∨ q = '"') (u : Str) : BytesLit q (u.flatMap (reprChar q)) (utf8Bytes u) := by
  have bytes : ∀ (bs : List Nat), (∀ b ∈ bs, b < 256) → ∀ s cs, BytesLit q s cs → BytesLit q (bs.flatMap (reprByte q) ++ s) (bs ++ cs) := by
    intro bs
    induction bs with
    | nil => intro _ s cs h; exact h
    | cons b bs ih =>
      intro hb s cs h
      rw [List.flatMap_cons, List.append_assoc]
      exact reprByte_lit q hq b (hb b (by simp)) _ _ (ih (fun x hx => hb x (by simp [hx])) s cs h)
  induction u with
  | nil => exact .nil
  | cons c u ih =>
    have := bytes (utf8 c) (utf8_byte c) _ _ ih
    rw [← utf8_eq] at this
    rw [List.flatMap_cons, reprChar, ← utf8_eq]
    exact this

end TTP

namespace Props
open Py Spec TTP

/-! ## C141 -/

/-- C141. A template - given as text or as a path - that has templates inside is added as its tree, in which the `extend` tags of the template
and of each template inside are replaced by what they stand for: although every template inside is written as bytes, read, written and read
again. (C90 says what the tree is added as.) -/
theorem C141_templates_inside (C : TplCtx) (hrw : C.rewrap = rewrapBytes) (macros : Str → Option (Str → PyM Str)) (o : TTPObj) (base name : Str)
    (filters : List Str) (arg text : Str) (hg : Given C.eng.world arg text) (htne : text ≠ []) (x : Xml) (hx : TreeOf XmlText.parse text x)
    (t : Option Str) (ys zs : List Xml) (h : Expands C.eng.world XmlText.parse macros true true x.text x.children t ys) (hne : ys ≠ [])
    (hr : NoReturns (.mk x.tag x.attrib t ys x.tail)) (hz : BecomeAll C.eng.world XmlText.parse macros ys zs) :
    ∃ N, ∀ n, N ≤ n → ∀ k, N ≤ k → addTemplateText C (xmlCtx macros k) n o base name filters arg =
      addTemplateXml C o base name filters (.mk x.tag x.attrib t zs x.tail) :=
  addTemplateText_tree C hrw macros o base name filters hg htne hx h hne hr hz

/-- C141 without `extend` tags: the template is added as the tree that was written. -/
theorem C141_as_written (C : TplCtx) (hrw : C.rewrap = rewrapBytes) (macros : Str → Option (Str → PyM Str)) (o : TTPObj) (base name : Str)
    (filters : List Str) (arg text : Str) (hg : Given C.eng.world arg text) (htne : text ≠ []) (x : Xml) (hx : TreeOf XmlText.parse text x)
    (hs : SettledAll x.children) (hr : NoReturns x) (hz : BecomeAll C.eng.world XmlText.parse macros x.children x.children) :
    ∃ N, ∀ n, N ≤ n → ∀ k, N ≤ k → addTemplateText C (xmlCtx macros k) n o base name filters arg = addTemplateXml C o base name filters x := by
  obtain ⟨n, a, t, cs, tl⟩ := x
  exact addTemplateText_tree C hrw macros o base name filters hg htne hx (settled_expand hs true true t) (treeOf_children hx) hr hz

/-- C141, what does not hold: a template inside that is only lines of text is loaded as a group with the text `b'`, with one element in it, the text of
which has no line ends: its lines are lost. -/
theorem C141_lines_lost {x : Xml} (hp : ProperXml x) : ((rewrapBytes x).text = some c!"\nb'" ∨ (rewrapBytes x).text = some c!"\nb\"") ∧
    ∃ y, (rewrapBytes x).children = [y] ∧ ∀ s, y.text = some s → '\n' ∉ s := by
  rw [rewrap_bytes hp]
  have hq := XmlText.reprQuote_quote (XmlText.serialize x)
  constructor
  · unfold XmlText.groupAround
    rcases hq with e | e
    · left; rw [e]; rfl
    · right; rw [e]; rfl
  · refine ⟨_, rfl, ?_⟩
    intro s e hm
    obtain ⟨n, a, t, cs, tl⟩ := x
    cases t with
    | none => simp [XmlText.shown, XmlText.withTail, XmlText.showXml, XmlText.showText, Xml.text] at e
    | some u =>
      have e' : u.flatMap (reprChar (reprQuote (XmlText.serialize (.mk n a (some u) cs tl)))) = s := Option.some.inj e
      rw [← e'] at hm
      obtain ⟨d, _, hd⟩ := List.mem_flatMap.1 hm
      have := ((XmlText.reprChar_chars hq d).2 _ hd).1
      exact absurd this (by decide)

/-- C141, what is loaded instead: the element in the group has the lines as Python shows their bytes in UTF-8 - line ends, quotes, backslashes and all that is not
ASCII with a backslash. The quotes are double ones if there are single ones in the element and no double ones, otherwise single ones. -/
theorem C141_shown {x : Xml} (hp : ProperXml x) (u : Str) (hu : x.text = some u) : ∃ q y s, (rewrapBytes x).text = some ['\n', 'b', q] ∧
    (rewrapBytes x).children = [y] ∧ y.text = some s ∧ BytesLit q s (utf8Bytes u) ∧ (q = '\'' ∨ q = '"') ∧
    (q = '"' ↔ '\'' ∈ XmlText.tostring false x ∧ '"' ∉ XmlText.tostring false x) := by
  rw [rewrap_bytes hp]
  have hq := XmlText.reprQuote_quote (XmlText.serialize x)
  have hs : XmlText.tostring false x = XmlText.serialize x := by unfold XmlText.tostring; exact XmlText.encode_false _
  rw [hs]
  refine ⟨reprQuote (XmlText.serialize x), _, u.flatMap (reprChar (reprQuote (XmlText.serialize x))), rfl, rfl, ?_, reprText_lit _ hq u, hq, ?_⟩
  · obtain ⟨n, a, t, cs, tl⟩ := x
    simp only [Xml.text] at hu
    subst hu
    rfl
  · unfold reprQuote
    by_cases h : '\'' ∈ XmlText.serialize x ∧ '"' ∉ XmlText.serialize x
    · simp [h]
    · simp [h]

namespace Ex
/-- context with the templates inside as they are in the code -/
def ictx : TplCtx := { xctx with rewrap := rewrapBytes }
/-- a template with a template inside that extends another, and one that has a group -/
def itext : Str := c!"<template><template name=\"a\"><extend template=\"lib\" groups=\"b\">\n</extend>\n</template>\n <template><group name=\"b\">\n</group>\n</template>\n</template>"
/-- the second template inside -/
def iT : Xml := .mk c!"template" [] none [grpN c!"b"] (some c!"\n")
/-- the first one, with what follows it -/
def iA (cs : List Xml) : Xml := .mk c!"template" [(c!"name", c!"a")] none cs (some c!"\n ")
theorem itext_tree : XmlText.parse itext = some (.mk c!"template" [] none [iA [el c!"extend" [(c!"template", c!"lib"), (c!"groups", c!"b")] []], iT] none) :=
  XmlText.reads_eq (by decide +kernel)
end Ex

/-- the hypotheses are met: a template inside extends another, one has a group; the names and groups of the templates are those of the tree -/
example : ∃ N, ∀ n, N ≤ n → ∀ k, N ≤ k → addTemplateText Ex.ictx (xmlCtx (fun _ => none) k) n Ex.objE [] c!"t" [] Ex.itext =
    addTemplateXml Ex.ictx Ex.objE [] c!"t" [] (.mk c!"template" [] none [Ex.iA [Ex.el c!"vars" [] [], Ex.grpN c!"b"], Ex.iT] none) := by
  have hn : ∀ s : Str, '\r' ∉ s → NoReturnText (some s) := by
    intro s h t e; cases e; exact h
  have hnone : NoReturnText none := by intro t e; cases e
  have hline : NoReturnText (some c!"\n") := hn _ (by decide)
  have hsp : NoReturnText (some c!"\n ") := hn _ (by decide)
  have hext : NoReturns (Ex.el c!"extend" [(c!"template", c!"lib"), (c!"groups", c!"b")] []) := .mk hline .nil hline
  have hgrp : NoReturns (Ex.grpN c!"b") := .mk hline .nil hline
  have hb : ∀ u : Str, (∀ c ∈ u, c = ' ' ∨ c = '\t' ∨ c = '\n') → ∀ s, some u = some s → XBlank s := by
    intro u h s e; cases e; exact h
  refine C141_templates_inside Ex.ictx rfl _ Ex.objE [] c!"t" [] Ex.itext Ex.itext
    (.text ⟨by decide, by decide +kernel, rfl, by intro d hd; cases hd⟩) (by decide) _ (.whole Ex.itext_tree (by decide) (by simp [Xml.children])) none
    [Ex.iA [Ex.el c!"extend" [(c!"template", c!"lib"), (c!"groups", c!"b")] []], Ex.iT] _
    (.other (by decide) (by decide) (.other (by decide) (by decide) .nil)) (by simp)
    (.mk hnone (.cons (.mk hnone (.cons hext .nil) hsp) (.cons (.mk hnone (.cons hgrp .nil) hline) .nil)) hnone) ?_
  refine .template (by decide) ?_ (.template (by decide) ?_ .nil)
  · refine .full (ys := [Ex.el c!"vars" [] [], Ex.grpN c!"b"] ++ []) (by simp) (hb _ (by decide)) (.mk hnone (.cons hext .nil) hsp) ?_ (by simp)
      (.mk hnone (.cons (.mk hline .nil hline) (.cons hgrp .nil)) hnone) (.other (by decide) (.other (by decide) .nil))
    refine .extend (e := .mk c!"template" [] none [Ex.el c!"vars" [] [], Ex.grpN c!"a", Ex.grpN c!"b"] none)
      (ks := [Ex.el c!"vars" [] [], Ex.grpN c!"b"]) ?_ ?_ ?_ (by simp) (.other (by decide) (by decide) (.group .nil .nil)) .nil
    · refine .mk (p := c!"lib") (c := Ex.xlib) (s := Ex.xlib) rfl (Ex.xfile _ _ (by decide)) (by decide) (Or.inl ⟨rfl, by intro m hm; simp [Dict.get?] at hm⟩) ?_
      exact .whole Ex.xlib_tree (by decide) (by simp [Xml.children])
    · rintro s ⟨g, h, _⟩; simp [Xml.children] at h
    · exact filterExtend_taken true [(c!"template", c!"lib"), (c!"groups", c!"b")] c!"lib" rfl [Ex.el c!"vars" [] [], Ex.grpN c!"a", Ex.grpN c!"b"]
  · exact .full (by simp) (hb _ (by decide)) (.mk hnone (.cons hgrp .nil) hline) (.group .nil .nil) (by simp)
      (.mk hnone (.cons hgrp .nil) hnone) (.other (by decide) .nil)

/-- the names and groups that this tree is loaded with -/
example : Ex.tplNames (addTemplateXml Ex.tctx Ex.objE [] c!"t" [] (.mk c!"template" [] none [Ex.iA [Ex.grpN c!"b"], Ex.iT] none)) =
    some [(c!"a", [c!"b"]), (c!"1", [c!"b"])] := by decide +kernel

/-- a template inside of lines of text, and what is loaded for it -/
example : rewrapBytes (.mk c!"template" [(c!"name", c!"a")] (some c!"\nport {{ p }}\n") [] (some c!"\n")) =
    .mk c!"group" [(c!"name", c!"_anonymous_")] (some c!"\nb'") [.mk c!"template" [(c!"name", c!"a")] (some c!"\\nport {{ p }}\\n") [] (some c!"\\n'\n")] none :=
  XmlText.same_eq _ _ (by decide +kernel)

/-- a quote, a backslash, a tabulation and a letter outside of ASCII as they are shown -/
example : (rewrapBytes (.mk c!"template" [] (some c!"it's\\\té") [] none)).text = some c!"\nb\"" ∧
    utf8Bytes c!"'\té" = [39, 9, 195, 169] ∧ BytesLit '"' c!"'\\t\\xc3\\xa9" [39, 9, 195, 169] := by
  refine ⟨by decide +kernel, by decide +kernel, ?_⟩
  have h1 : HexOf 'c' 12 := .inr (by decide)
  have h2 : HexOf '3' 3 := .inl (by decide)
  have h3 : HexOf 'a' 10 := .inr (by decide)
  have h4 : HexOf '9' 9 := .inl (by decide)
  exact .char (c := '\'') (by decide) (by decide) (by decide) (by decide) (.tab (.hex h1 h2 (.hex h3 h4 .nil)))

/-! ## C142 -/

/-- C142. A template with a template inside that is followed by text - anything but white space before the next tag - is never loaded: with
whatever bound for the depth of templates inside of templates the result is an error. -/
theorem C142_text_after_template (C : TplCtx) (macros : Str → Option (Str → PyM Str)) (limit depth : Nat) (o : TTPObj) (base name arg text : Str)
    (hg : Given C.eng.world arg text) (htne : text ≠ []) (x : Xml) (hx : TreeOf XmlText.parse text x) (hs : SettledAll x.children) (hr : NoReturns x)
    (c : Xml) (hc : c ∈ x.children) (ht : lower c.tag = c!"template") (s : Str) (htl : c.tail = some s) (hb : ∃ d ∈ s, d ≠ ' ' ∧ d ≠ '\t' ∧ d ≠ '\n') :
    ∃ e, addTemplateText C (xmlCtx macros limit) depth o base name [] arg = .error e := by
  obtain ⟨hp, htl0⟩ := XmlText.tree_proper hx
  have hw : TreeOf (xmlCtx macros limit).parse ((xmlCtx macros limit).write x) x :=
    .whole (XmlText.parse_tostring true hp hr htl0) (XmlText.tree_tag hx) (treeOf_children hx)
  have hrd := readTemplate_settled (w := C.eng.world) (X := xmlCtx macros limit) htne hx hs hw
  refine addTemplateText_trailed C macros limit depth o base name hg hrd hp hc ?_ ht htl ?_
  · cases hr with
    | mk _ h _ => exact noReturns_mem h c hc
  · rintro hbl
    obtain ⟨d, hd, h1, h2, h3⟩ := hb
    rcases hbl d hd with e | e | e
    · exact h1 e
    · exact h2 e
    · exact h3 e
where
  noReturns_mem {cs : List Xml} (h : NoReturnsAll cs) : ∀ c ∈ cs, NoReturns c := by
    intro c hc
    induction cs with
    | nil => cases hc
    | cons y ys ih =>
      cases h with
      | cons h1 h2 =>
        rcases List.mem_cons.1 hc with rfl | hc
        · exact h1
        · exact ih h2 hc

/-- a word after the template: if it is before the template, it is loaded -/
example (depth : Nat) : (∃ e, addTemplateText Ex.ictx (xmlCtx (fun _ => none) 5) depth Ex.objE [] c!"t" []
      c!"<template><template name=\"a\"><group name=\"b\">\n</group>\n</template>note\n</template>" = .error e) ∧
    ∃ N, ∀ n, N ≤ n → ∀ k, N ≤ k → addTemplateText Ex.ictx (xmlCtx (fun _ => none) k) n Ex.objE [] c!"t" []
      c!"<template>note<template name=\"a\"><group name=\"b\">\n</group>\n</template>\n</template>" =
      addTemplateXml Ex.ictx Ex.objE [] c!"t" [] (.mk c!"template" [] (some c!"note") [.mk c!"template" [(c!"name", c!"a")] none [Ex.grpN c!"b"] (some c!"\n")] none) := by
  have hn : ∀ s : Str, '\r' ∉ s → NoReturnText (some s) := by
    intro s h t e; cases e; exact h
  have hnone : NoReturnText none := by intro t e; cases e
  have hline : NoReturnText (some c!"\n") := hn _ (by decide)
  have hgrp : NoReturns (Ex.grpN c!"b") := .mk hline .nil hline
  have hset : SettledAll [Ex.grpN c!"b"] := .cons (.mk (by decide) (fun _ => .nil)) .nil
  constructor
  · exact C142_text_after_template Ex.ictx _ 5 depth Ex.objE [] c!"t" _ _ (.text ⟨by decide, by decide +kernel, rfl, by intro d hd; cases hd⟩) (by decide)
      (.mk c!"template" [] none [.mk c!"template" [(c!"name", c!"a")] none [Ex.grpN c!"b"] (some c!"note\n")] none)
      (.whole (XmlText.reads_eq (by decide +kernel)) (by decide) (by simp [Xml.children])) (.cons (.mk (by decide) (fun h => absurd h (by decide))) .nil)
      (.mk hnone (.cons (.mk hnone (.cons hgrp .nil) (hn _ (by decide))) .nil) hnone) _ (List.mem_singleton.2 rfl) (by decide) _ rfl ⟨'n', by simp, by decide⟩
  · refine C141_as_written Ex.ictx rfl _ Ex.objE [] c!"t" [] _ _ (.text ⟨by decide, by decide +kernel, rfl, by intro d hd; cases hd⟩) (by decide) _
      (.whole (XmlText.reads_eq (by decide +kernel)) (by decide) (by simp [Xml.children])) (.cons (.mk (by decide) (fun h => absurd h (by decide))) .nil)
      (.mk (hn _ (by decide)) (.cons (.mk hnone (.cons hgrp .nil) hline) .nil) hnone)
      (.template (by decide) (.full (by simp) ?_ (.mk hnone (.cons hgrp .nil) hline) (.group .nil .nil) (by simp)
      (.mk hnone (.cons hgrp .nil) hnone) (.other (by decide) .nil)) .nil)
    intro s e; cases e; intro c hc; simp at hc; simp [hc]

end Props
