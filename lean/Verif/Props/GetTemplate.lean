import Verif.Model.GetTemplate
import Verif.Props.XmlText
import Verif.Props.Inner
/-!
# The text of the templates of a parser (C161)
-/

namespace TTP
open Py Spec

/-- what is loaded is what is kept -/
theorem readTemplate_kept (w : World) (X : ExtCtx) (text : Str) :
    readTemplate w X text = (do let s ← keptText w X text; constructEtree X.parse s) := by
  unfold readTemplate keptText
  by_cases h : text = []
  · rw [if_pos h, if_pos h]; rfl
  · rw [if_neg h, if_neg h]
    cases constructEtree X.parse text with
    | error e => rfl
    | ok x =>
      simp only [ok_bind]
      cases handleExtend w X X.limit false true [] x.children x.text with
      | error e => rfl
      | ok r => rfl

theorem mapM_ne {α β : Type} {f : α → PyM β} {l : List α} {r : List β} (h : l.mapM f = .ok r) (hl : l ≠ []) : r ≠ [] := by
  cases l with
  | nil => exact absurd rfl hl
  | cons a l =>
    rw [List.mapM_cons, bind_ok_iff _ _ _] at h
    obtain ⟨b, _, h⟩ := h
    rw [bind_ok_iff _ _ _] at h
    obtain ⟨bs, _, h⟩ := h
    cases h
    simp

theorem keptTexts_ne {w : World} {X : ExtCtx} {t : Str} {r : List Str} (h : keptTexts w X t = .ok r) : r ≠ [] := by
  unfold keptTexts at h
  rw [bind_ok_iff _ _ _] at h
  obtain ⟨s, _, h⟩ := h
  rw [bind_ok_iff _ _ _] at h
  obtain ⟨x, _, h⟩ := h
  dsimp only at h
  split at h
  · cases h; simp
  · next hi => exact mapM_ne h (by intro e; rw [e] at hi; exact hi rfl)

theorem getTemplate_one {w : World} {X : ExtCtx} {t g : Str} : getTemplate w X [t] = .ok g ↔ ∃ r, keptTexts w X t = .ok r ∧ join ['\n'] r = g := by
  have e : keptAll w X [t] = keptTexts w X t := by
    unfold keptAll keptAll
    cases keptTexts w X t with
    | error e => rfl
    | ok r => simp only [ok_bind, pure_ok, List.append_nil]
  unfold getTemplate
  rw [e, bind_ok_iff _ _ _]
  constructor
  · rintro ⟨r, h1, h2⟩; cases h2; exact ⟨r, h1, rfl⟩
  · rintro ⟨r, h1, h2⟩; exact ⟨r, h1, by rw [h2]; rfl⟩

/-- the texts kept for several texts are those of each, in their order -/
theorem keptAll_several {w : World} {X : ExtCtx} {texts gs : List Str} (h : All2 (fun t g => getTemplate w X [t] = .ok g) texts gs) :
    ∃ r, keptAll w X texts = .ok r ∧ (texts ≠ [] → r ≠ []) ∧ join ['\n'] r = join ['\n'] gs := by
  induction h with
  | nil => exact ⟨[], rfl, fun h => absurd rfl h, rfl⟩
  | @cons t g ts gs h1 h2 ih =>
    obtain ⟨r, hr, hj⟩ := getTemplate_one.1 h1
    obtain ⟨r2, hr2, hne, hj2⟩ := ih
    refine ⟨r ++ r2, by unfold keptAll; rw [hr, hr2]; rfl, fun _ => by simp [keptTexts_ne hr], ?_⟩
    by_cases hts : ts = []
    · subst hts
      cases h2
      cases hr2
      rw [List.append_nil, hj]; rfl
    · have hg : gs ≠ [] := by
        cases h2 with
        | nil => exact absurd rfl hts
        | cons _ _ => simp
      rw [join_append _ _ _ (keptTexts_ne hr) (hne hts), join_cons _ _ _ hg, hj, hj2]

theorem tagKind_template (s : Str) : tagKind s = .template ↔ lower s = c!"template" := by
  unfold tagKind
  dsimp only
  constructor
  · intro e
    repeat' split at e
    all_goals first | assumption | cases e
  · intro e
    rw [e]; decide

theorem keptBytes_full {w : World} {macros : Str → Option (Str → PyM Str)} {n : Str} {a : Dict Str Str} {t t' tl : Option Str} {cs ys : List Xml}
    (hne : cs ≠ []) (hb : ∀ s, tl = some s → XBlank s) (hr : NoReturns (.mk n a t cs tl)) (h : Expands w XmlText.parse macros true true t cs t' ys)
    (hr' : NoReturns (.mk n a t' ys none)) (hp : ProperXml (.mk n a t cs tl)) (ht : lower n = c!"template") :
    ∃ N, ∀ k, N ≤ k → ∃ g, keptBytes w (xmlCtx macros k) (XmlText.tostring false (.mk n a t cs tl)) = .ok g ∧ XDocument g (.mk n a t' ys none) := by
  obtain ⟨N, hN⟩ := handle_xml h
  refine ⟨N, fun k hk => ⟨XmlText.tostring true (.mk n a t' ys none), ?_, ?_⟩⟩
  · have e1 := XmlText.parse_tostring_blank false hp hr hb
    have e0 := constructBytes_whole (parse := (xmlCtx macros k).parse) (x := .mk n a t cs none) e1 ht hne
    have e2 : handleExtend w (xmlCtx macros k) (xmlCtx macros k).limit false true [] cs t = .ok (t', ys) := hN k hk
    unfold keptBytes
    simp only [e0, ok_bind, Xml.children, Xml.text, e2, Xml.tag, Xml.attrib, Xml.tail]
    rfl
  · have hp' : ProperXml (.mk n a t' ys none) := by
      obtain ⟨h1, h2⟩ := XmlText.expands_proper h (XmlText.proper_text hp) (XmlText.proper_children hp)
      cases hp with
      | mk g1 g2 g3 g4 g5 g6 g7 => exact .mk g1 g2 g3 g4 h1 (XmlText.properXmls_iff.2 h2) XmlText.proper_none
    exact (Props.C137_parser _ _).1 (XmlText.parse_tostring true hp' hr' rfl)

end TTP


namespace TTP
open Py Spec

theorem keptBytes_plain {w : World} {macros : Str → Option (Str → PyM Str)} {limit : Nat} {n : Str} {a : Dict Str Str} {t tl : Option Str}
    (hb : ∀ s, tl = some s → XBlank s) (hr : NoReturns (.mk n a t [] tl)) (hp : ProperXml (.mk n a t [] tl)) (ht : lower n = c!"template") :
    ∃ g, keptBytes w (xmlCtx macros limit) (XmlText.tostring false (.mk n a t [] tl)) = .ok g ∧
      XDocument g (.mk c!"template" [] none [rewrapBytes (.mk n a t [] tl)] none) := by
  have e1 := XmlText.parse_tostring_blank false hp hr hb
  have e2 := XmlText.parse_groupAround hp
  have e3 : constructBytes (xmlCtx macros limit).parse (XmlText.tostring false (.mk n a t [] tl)) = .ok (XmlText.templateAround (.mk n a t [] tl)) := by
    unfold constructBytes
    simp only [xmlCtx]
    simp only [Xml.tag, Xml.attrib, Xml.text, Xml.children] at e1
    simp only [e1, ht, if_true, pure_ok, ok_bind, e2, Xml.tag, Xml.children, List.isEmpty_nil]
  have hst : SettledAll (XmlText.templateAround (.mk n a t [] tl)).children := by
    refine .cons (.mk (by decide) (fun _ => .cons ?_ .nil)) .nil
    have hk : (XmlText.shown (reprQuote (XmlText.serialize (.mk n a t [] tl))) (.mk n a t [] tl)).tag = n := XmlText.shown_tag _ _
    generalize XmlText.shown (reprQuote (XmlText.serialize (.mk n a t [] tl))) (.mk n a t [] tl) = y at hk
    obtain ⟨n', a', t', cs', tl'⟩ := y
    have hk' : n' = n := hk
    subst hk'
    exact .mk (by rintro rfl; exact absurd ht (by decide)) (by rintro rfl; exact absurd ht (by decide))
  have e4 : XmlText.parse (XmlText.tostring true (XmlText.templateAround (.mk n a t [] tl))) = some (XmlText.templateAround (.mk n a t [] tl)) :=
    XmlText.parse_tostring true (XmlText.groupAround_proper hp) (XmlText.groupAround_noReturns _) rfl
  refine ⟨XmlText.tostring true (XmlText.templateAround (.mk n a t [] tl)), ?_, ?_⟩
  · unfold keptBytes
    rw [e3, ok_bind, handle_settled_id w (xmlCtx macros limit) (xmlCtx macros limit).limit false true _ hst [] _, ok_bind]
    rfl
  · rw [rewrap_bytes hp]
    exact (Props.C137_parser _ _).1 e4

theorem keptBytes_all {w : World} {macros : Str → Option (Str → PyM Str)} {is zs : List Xml} (h : All2 (InsideOf w macros) is zs)
    (hp : ∀ i ∈ is, ProperXml i ∧ lower i.tag = c!"template") :
    ∃ N, ∀ k, N ≤ k → ∃ gs, is.mapM (fun c => keptBytes w (xmlCtx macros k) (XmlText.tostring false c)) = .ok gs ∧ All2 XDocument gs zs := by
  induction h with
  | nil => exact ⟨0, fun k _ => ⟨[], rfl, .nil⟩⟩
  | @cons i z is zs h1 _ ih =>
    obtain ⟨N, hN⟩ := ih (fun j hj => hp j (List.mem_cons_of_mem _ hj))
    obtain ⟨hpi, hti⟩ := hp i List.mem_cons_self
    cases h1 with
    | mk hne hb hr h hr' =>
      obtain ⟨M, hM⟩ := keptBytes_full hne hb hr h hr' hpi hti
      refine ⟨N + M, fun k hk => ?_⟩
      obtain ⟨gs, e1, e2⟩ := hN k (by omega)
      obtain ⟨g, e3, e4⟩ := hM k (by omega)
      refine ⟨g :: gs, ?_, .cons e4 e2⟩
      rw [List.mapM_cons, e3, ok_bind, e1]; rfl
    | plain hb hr =>
      refine ⟨N, fun k hk => ?_⟩
      obtain ⟨gs, e1, e2⟩ := hN k hk
      obtain ⟨g, e3, e4⟩ := keptBytes_plain (w := w) (macros := macros) (limit := k) hb hr hpi hti
      refine ⟨g :: gs, ?_, .cons e4 e2⟩
      rw [List.mapM_cons, e3, ok_bind, e1]; rfl

end TTP

namespace Props
open Py TTP Spec

/-- **C161**: `get_template` of a parser with one template (given as text or path, with no templates inside) returns a text that is an XML
document without `extend` tags to handle - the template in which every tag is replaced by what it stands for - and to add this text is
to add the same template. -/
theorem C161_get_template (C : TplCtx) (macros : Str → Option (Str → PyM Str)) (o : TTPObj) (base name : Str) (filters : List Str) (arg text : Str)
    (hg : Given C.eng.world arg text) (htne : text ≠ []) (x : Xml) (hx : TreeOf XmlText.parse text x) (t : Option Str) (ys : List Xml)
    (h : Expands C.eng.world XmlText.parse macros true true x.text x.children t ys) (hne : ys ≠ [])
    (hr : NoReturns (.mk x.tag x.attrib t ys x.tail)) (hi : ∀ y ∈ ys, lower y.tag ≠ c!"template") :
    ∃ N, ∀ n, N ≤ n → ∃ g, getTemplate C.eng.world ⟨XmlText.parse, XmlText.tostring true, macros, n⟩ [text] = .ok g ∧
      XDocument g (.mk x.tag x.attrib t ys x.tail) ∧ SettledAll ys ∧
      (NotAPath C.eng.world g → addTemplateAny C ⟨XmlText.parse, XmlText.tostring true, macros, n⟩ o base name filters (.str g) =
        addTemplateAny C ⟨XmlText.parse, XmlText.tostring true, macros, n⟩ o base name filters (.str arg)) := by
  have hw := XmlText.expands_reread hx h hne hr
  obtain ⟨hp, htl⟩ := XmlText.tree_proper hw
  have hst : SettledAll ys := expands_settled h
  obtain ⟨N1, h1⟩ := C138_extend C macros o base name filters arg text hg htne x hx t ys h hne hr
  obtain ⟨N2, h2⟩ := handle_expands (write := XmlText.tostring true) h
  refine ⟨max N1 N2, fun n hn => ⟨XmlText.tostring true (.mk x.tag x.attrib t ys x.tail), ?_, ?_, hst, fun hpath => ?_⟩⟩
  · have e := h2 n (by omega) false (fun _ => rfl) x.text t (fun _ => ⟨rfl, rfl⟩) (by intro e; cases e) []
    have hk : keptText C.eng.world ⟨XmlText.parse, XmlText.tostring true, macros, n⟩ text =
        .ok (XmlText.tostring true (.mk x.tag x.attrib t ys x.tail)) := by
      unfold keptText
      rw [if_neg htne, constructEtree_tree (parse := XmlText.parse) hx, ok_bind]
      have := handle_limit C.eng.world ⟨XmlText.parse, XmlText.tostring true, macros, 0⟩ n n
      dsimp only at this ⊢
      rw [this, e, ok_bind, List.nil_append]; rfl
    have hf : (Xml.mk x.tag x.attrib t ys x.tail).children.filter (fun c => decide (tagKind c.tag = .template)) = [] := by
      rw [List.filter_eq_nil_iff]
      intro y hy
      have := hi y hy
      simp only [decide_eq_true_eq]
      unfold tagKind
      dsimp only
      intro e
      split at e
      · cases e
      · split at e
        · cases e
        · split at e
          · cases e
          · split at e
            · cases e
            · split at e
              · cases e
              · split at e
                · cases e
                · split at e <;> cases e
    have hk2 : keptTexts C.eng.world ⟨XmlText.parse, XmlText.tostring true, macros, n⟩ text =
        .ok [XmlText.tostring true (.mk x.tag x.attrib t ys x.tail)] := by
      unfold keptTexts
      rw [hk, ok_bind]
      dsimp only
      rw [constructEtree_tree (parse := XmlText.parse) hw, ok_bind, hf]
      rfl
    unfold getTemplate keptAll keptAll
    rw [hk2]
    rfl
  · exact (C137_parser _ _).1 (XmlText.parse_tostring true hp hr htl)
  · rw [h1 n (by omega)]
    have hne' : XmlText.tostring true (.mk x.tag x.attrib t ys x.tail) ≠ [] := by
      intro e
      have hd : XmlText.parse (XmlText.tostring true (.mk x.tag x.attrib t ys x.tail)) = _ := XmlText.parse_tostring true hp hr htl
      rw [e] at hd
      have : (XmlText.parse []).isNone = true := by decide +kernel
      rw [hd] at this; cases this
    exact C138_no_extend C macros n o base name filters _ _ (.text hpath) hne' _ hw hst hr

/-- **C161** (several templates): the text of a parser with several templates is that of each, in the order in which they were added, with a
line break in between. -/
theorem C161_several (w : World) (X : ExtCtx) (texts gs : List Str) (h : All2 (fun t g => getTemplate w X [t] = .ok g) texts gs) :
    getTemplate w X texts = .ok (join ['\n'] gs) := by
  obtain ⟨r, h1, _, h3⟩ := keptAll_several h
  unfold getTemplate
  rw [h1, ok_bind, h3]; rfl

/-- **C161** (templates inside): the text of a template that has templates inside is that of the templates inside, in order, with a line break in
between; each is an XML document of the template inside in which every `extend` tag is replaced by what it stands for. -/
theorem C161_inside (w : World) (macros : Str → Option (Str → PyM Str)) (text : Str) (htne : text ≠ []) (x : Xml) (hx : TreeOf XmlText.parse text x)
    (t : Option Str) (ys : List Xml) (h : Expands w XmlText.parse macros true true x.text x.children t ys) (hne : ys ≠ [])
    (hr : NoReturns (.mk x.tag x.attrib t ys x.tail)) (zs : List Xml)
    (hz : All2 (InsideOf w macros) (ys.filter (fun y => lower y.tag = c!"template")) zs) (hzs : zs ≠ []) :
    ∃ N, ∀ n, N ≤ n → ∃ gs, getTemplate w ⟨XmlText.parse, XmlText.tostring true, macros, n⟩ [text] = .ok (join ['\n'] gs) ∧ All2 XDocument gs zs := by
  have hw := XmlText.expands_reread hx h hne hr
  obtain ⟨hp, htl⟩ := XmlText.tree_proper hw
  have hps := XmlText.proper_children hp
  obtain ⟨N1, h1⟩ := handle_xml h
  obtain ⟨N2, h2⟩ := keptBytes_all hz (fun i hi => by
    have := List.mem_filter.1 hi
    exact ⟨hps i this.1, by simpa using this.2⟩)
  refine ⟨N1 + N2, fun n hn => ?_⟩
  obtain ⟨gs, e1, e2⟩ := h2 n (by omega)
  refine ⟨gs, getTemplate_one.2 ⟨gs, ?_, rfl⟩, e2⟩
  have hk : keptText w ⟨XmlText.parse, XmlText.tostring true, macros, n⟩ text = .ok (XmlText.tostring true (.mk x.tag x.attrib t ys x.tail)) := by
    unfold keptText
    have e := h1 n (by omega)
    unfold xmlCtx at e
    rw [if_neg htne, constructEtree_tree (parse := XmlText.parse) hx, ok_bind]
    dsimp only at e ⊢
    rw [e]; rfl
  have hf : (Xml.mk x.tag x.attrib t ys x.tail).children.filter (fun c => decide (tagKind c.tag = .template)) = ys.filter (fun y => lower y.tag = c!"template") := by
    show ys.filter _ = _
    apply List.filter_congr
    intro y _
    simp only [tagKind_template]
  unfold keptTexts
  rw [hk, ok_bind]
  dsimp only
  rw [constructEtree_tree (parse := XmlText.parse) hw, ok_bind, hf]
  have : (ys.filter (fun y => lower y.tag = c!"template")).isEmpty = false := by
    revert hz hzs
    generalize ys.filter (fun y => lower y.tag = c!"template") = l
    intro hz hzs
    cases hz with
    | nil => exact absurd rfl hzs
    | cons _ _ => rfl
  rw [this]
  exact e1

/-- the template of the examples for C141: a template inside that extends another, and one with a group -/
example : ∃ N, ∀ n, N ≤ n → ∃ g1 g2, getTemplate Ex.ictx.eng.world ⟨XmlText.parse, XmlText.tostring true, (fun _ => none), n⟩ [Ex.itext] = .ok (g1 ++ c!"\n" ++ g2) ∧
    XDocument g1 (.mk c!"template" [(c!"name", c!"a")] none [Ex.el c!"vars" [] [], Ex.grpN c!"b"] none) ∧
    XDocument g2 (.mk c!"template" [] none [Ex.grpN c!"b"] none) := by
  have hn : ∀ s : Str, '\r' ∉ s → NoReturnText (some s) := by
    intro s h t e; cases e; exact h
  have hnone : NoReturnText none := by intro t e; cases e
  have hline : NoReturnText (some c!"\n") := hn _ (by decide)
  have hsp : NoReturnText (some c!"\n ") := hn _ (by decide)
  have hext : NoReturns (Ex.el c!"extend" [(c!"template", c!"lib"), (c!"groups", c!"b")] []) := .mk hline .nil hline
  have hgrp : NoReturns (Ex.grpN c!"b") := .mk hline .nil hline
  have hb : ∀ u : Str, (∀ c ∈ u, c = ' ' ∨ c = '\t' ∨ c = '\n') → ∀ s, some u = some s → XBlank s := by
    intro u h s e; cases e; exact h
  obtain ⟨N, hN⟩ := C161_inside Ex.ictx.eng.world (fun _ => none) Ex.itext (by decide) _ (.whole Ex.itext_tree (by decide) (by simp [Xml.children])) none
    [Ex.iA [Ex.el c!"extend" [(c!"template", c!"lib"), (c!"groups", c!"b")] []], Ex.iT]
    (.other (by decide) (by decide) (.other (by decide) (by decide) .nil)) (by simp)
    (.mk hnone (.cons (.mk hnone (.cons hext .nil) hsp) (.cons (.mk hnone (.cons hgrp .nil) hline) .nil)) hnone)
    [.mk c!"template" [(c!"name", c!"a")] none ([Ex.el c!"vars" [] [], Ex.grpN c!"b"] ++ []) none, .mk c!"template" [] none [Ex.grpN c!"b"] none]
    (by
      refine (show All2 _ [Ex.iA [Ex.el c!"extend" [(c!"template", c!"lib"), (c!"groups", c!"b")] []], Ex.iT] _ from ?_)
      refine .cons ?_ (.cons ?_ .nil)
      · refine .mk (by simp) (hb _ (by decide)) (.mk hnone (.cons hext .nil) hsp) ?_ (.mk hnone (.cons (.mk hline .nil hline) (.cons hgrp .nil)) hnone)
        refine .extend (e := .mk c!"template" [] none [Ex.el c!"vars" [] [], Ex.grpN c!"a", Ex.grpN c!"b"] none)
          (ks := [Ex.el c!"vars" [] [], Ex.grpN c!"b"]) ?_ ?_ ?_ (by simp) (.other (by decide) (by decide) (.group .nil .nil)) .nil
        · refine .mk (p := c!"lib") (c := Ex.xlib) (s := Ex.xlib) rfl (Ex.xfile _ _ (by decide)) (by decide) (Or.inl ⟨rfl, by intro m hm; simp [Dict.get?] at hm⟩) ?_
          exact .whole Ex.xlib_tree (by decide) (by simp [Xml.children])
        · rintro s ⟨g, h, _⟩; simp [Xml.children] at h
        · exact filterExtend_taken true [(c!"template", c!"lib"), (c!"groups", c!"b")] c!"lib" rfl [Ex.el c!"vars" [] [], Ex.grpN c!"a", Ex.grpN c!"b"]
      · exact .mk (by simp) (hb _ (by decide)) (.mk hnone (.cons hgrp .nil) hline) (.group .nil .nil) (.mk hnone (.cons hgrp .nil) hnone))
    (by simp)
  refine ⟨N, fun n hn => ?_⟩
  obtain ⟨gs, h1, h2⟩ := hN n hn
  cases h2 with
  | cons a h2 => cases h2 with
    | cons b h2 => cases h2; exact ⟨_, _, h1, a, b⟩

/-- the main template of the examples for C96, with an `extend` tag at the top, one in a group and a text without tags -/
example : ∃ N, ∀ n, N ≤ n → ∃ g, getTemplate Ex.xctx.eng.world (Ex.xmlX n) [Ex.xmain] = .ok g ∧
    XDocument g (.mk c!"template" [] none [Ex.el c!"vars" [] [], Ex.grpN c!"b",
      .mk c!"group" [(c!"name", c!"n")] (some c!"\n\nport {{ p }}\n") [] (some c!"\n")] none) := by
  have hn : ∀ s : Str, '\r' ∉ s → NoReturnText (some s) := by
    intro s h t e; cases e; exact h
  have hnone : NoReturnText none := by intro t e; cases e
  have hi : ∀ y ∈ [Ex.el c!"vars" [] [], Ex.grpN c!"b", .mk c!"group" [(c!"name", c!"n")] (some c!"\n\nport {{ p }}\n") [] (some c!"\n")],
      lower y.tag ≠ c!"template" := by
    intro y hy
    simp only [List.mem_cons, List.not_mem_nil, or_false] at hy
    rcases hy with rfl | rfl | rfl
    · show lower c!"vars" ≠ _; decide
    · show lower c!"group" ≠ _; decide
    · show lower c!"group" ≠ _; decide
  obtain ⟨N, hN⟩ := C161_get_template Ex.xctx (fun _ => none) Ex.obj0 [] c!"t" [] Ex.xmain Ex.xmain
    (.text ⟨by decide, by decide +kernel, rfl, by intro d hd; cases hd⟩) (by decide) _ (.whole Ex.xmain_tree (by decide) (by simp [Xml.children])) none _ Ex.xexpands
    (by simp) (.mk hnone (.cons (.mk (hn _ (by decide)) .nil (hn _ (by decide))) (.cons (.mk (hn _ (by decide)) .nil (hn _ (by decide)))
      (.cons (.mk (hn _ (by decide)) .nil (hn _ (by decide))) .nil))) hnone)
    hi
  refine ⟨N, fun n hn => ?_⟩
  obtain ⟨g, h1, h2, _, _⟩ := hN n hn
  exact ⟨g, h1, h2⟩

end Props
