import Verif.Proofs.Inner4
/-!
# Templates inside of templates that are followed by text: they never load
-/

namespace TTP
open Py Spec

theorem settled_template {x : Xml} (h : lower x.tag = c!"template") : Spec.Settled x := by
  obtain ⟨n, a, t, cs, tl⟩ := x
  have h' : lower n = c!"template" := h
  exact .mk (by rintro rfl; exact absurd h' (by decide)) (by rintro rfl; exact absurd h' (by decide))

/-- the bytes of an element that is followed by text are read as a template in which the element is followed by text -/
theorem readBytes_trailed {w : World} {macros : Str → Option (Str → PyM Str)} {limit : Nat} {x : Xml} (hp : ProperXml x) (hr : NoReturns x)
    {s : Str} (hs : x.tail = some s) (hb : ¬ XBlank s) (ht : lower x.tag = c!"template") :
    readBytes w (xmlCtx macros limit) (XmlText.tostring false x) = .ok (XmlText.around x) := by
  have e1 := XmlText.parse_tail hp hr hs hb
  have e2 := XmlText.parse_around hp
  have e3 : constructBytes (xmlCtx macros limit).parse (XmlText.tostring false x) = .ok (XmlText.around x) := by
    have hne : (XmlText.around x).children.isEmpty = false := rfl
    unfold constructBytes
    simp only [xmlCtx]
    simp only [e1, e2, ok_bind, hne, Bool.false_eq_true, if_false, pure_ok]
  have hst : SettledAll (XmlText.around x).children := .cons (settled_template (by rw [XmlText.shown_tag]; exact ht)) .nil
  unfold readBytes
  rw [e3, ok_bind, handle_settled_id w (xmlCtx macros limit) (xmlCtx macros limit).limit false true _ hst [] _, ok_bind]
  have e4 : XmlText.parse (XmlText.tostring true (XmlText.around x)) = some (XmlText.around x) :=
    XmlText.parse_tostring true (XmlText.around_proper hp) (XmlText.around_noReturns _) rfl
  have e5 : lower (XmlText.around x).tag = c!"template" := by show lower c!"template" = c!"template"; decide
  have e6 : (XmlText.around x).children ≠ [] := by simp [XmlText.around, Xml.children]
  exact constructEtree_tree (parse := XmlText.parse) (.whole e4 e5 e6)

/-- they never load -/
theorem loadBytes_trailed (C : TplCtx) (macros : Str → Option (Str → PyM Str)) (limit : Nat) (ovars : Dict Str Val) : ∀ (n : Nat) (a0 : TAttrs) (x : Xml),
    ProperXml x → NoReturns x → (∃ s, x.tail = some s ∧ ¬ XBlank s) → lower x.tag = c!"template" →
    loadBytes C (xmlCtx macros limit) ovars n a0 (XmlText.tostring false x) = .error .runtimeError := by
  intro n
  induction n with
  | zero => intro a0 x _ _ _ _; rfl
  | succ n ih =>
    intro a0 x hp hr ⟨s, hs, hb⟩ ht
    have hq := XmlText.reprQuote_quote (XmlText.serialize x)
    have hk : lower (XmlText.shown (reprQuote (XmlText.serialize x)) x).tag = c!"template" := by rw [XmlText.shown_tag]; exact ht
    have e := fun a => ih a _ (XmlText.shown_proper hq hp) (XmlText.shown_noReturns hq x) (XmlText.shown_tail hq x) hk
    have hkind : tagKind (XmlText.shown (reprQuote (XmlText.serialize x)) x).tag = .template := (kind_template _).2 (by simpa using hk)
    rw [loadBytes, readBytes_trailed hp hr hs hb ht, ok_bind]
    unfold loadWith
    rw [if_neg (by simp)]
    have e1 : (XmlText.around x).children = [XmlText.shown (reprQuote (XmlText.serialize x)) x] := rfl
    rw [e1]
    simp only [collectTags, hkind, pure_ok, ok_bind, loadInners, ne_eq, not_true_eq_false, if_false, false_and, e, err_bind]

/-- if one of the templates inside does not load, nothing does -/
theorem loadInners_error {inner : TAttrs → Str → PyM TplNode} {base : Str} {c : Xml} (hk : lower c.tag = c!"template")
    (h : ∀ a, ∃ e, inner a (XmlText.tostring false c) = .error e) : ∀ (cs : List Xml) (k : Nat), c ∈ cs → ∃ e, loadInners inner base [] k cs = .error e := by
  intro cs
  induction cs with
  | nil => intro k hc; cases hc
  | cons d cs ih =>
    intro k hc
    rw [loadInners]
    by_cases h1 : tagKind d.tag ≠ .template
    · rw [if_pos h1]
      rcases List.mem_cons.1 hc with rfl | hc
      · exact absurd ((kind_template _).2 (by simpa using hk)) h1
      · exact ih k hc
    · rw [if_neg h1, if_neg (by simp)]
      cases hd : inner ⟨natStr k, base, c!"per_input", c!"."⟩ (XmlText.tostring false d) with
      | error e => exact ⟨e, rfl⟩
      | ok t =>
        rcases List.mem_cons.1 hc with rfl | hc
        · obtain ⟨e, he⟩ := h ⟨natStr k, base, c!"per_input", c!"."⟩
          rw [he] at hd; cases hd
        · obtain ⟨e, he⟩ := ih (k + 1) hc
          exact ⟨e, by rw [he]; rfl⟩

/-- a template with a template inside that is followed by text does not load -/
theorem addTemplateText_trailed (C : TplCtx) (macros : Str → Option (Str → PyM Str)) (limit depth : Nat) (o : TTPObj) (base name : Str)
    {arg text : Str} (hg : Given C.eng.world arg text) {y : Xml} (hy : readTemplate C.eng.world (xmlCtx macros limit) text = .ok y)
    (hp : ProperXml y) {c : Xml} (hc : c ∈ y.children) (hr : NoReturns c) (ht : lower c.tag = c!"template") {s : Str} (hs : c.tail = some s) (hb : ¬ XBlank s) :
    ∃ e, addTemplateText C (xmlCtx macros limit) depth o base name [] arg = .error e := by
  have key : ∃ e, loadWith C o.vars (loadBytes C (xmlCtx macros limit) o.vars depth) ⟨name, base, c!"per_input", c!"."⟩ [] y = .error e := by
    unfold loadWith
    rw [if_neg (by simp)]
    cases collectTags y.children ⟨[], [], [], [], [], []⟩ with
    | error e => exact ⟨e, rfl⟩
    | ok tags =>
      rw [ok_bind]
      obtain ⟨e, he⟩ := loadInners_error (inner := loadBytes C (xmlCtx macros limit) o.vars depth) (base := (tplAttrs y.attrib ⟨name, base, c!"per_input", c!"."⟩).base) ht
        (fun a => ⟨_, loadBytes_trailed C macros limit o.vars depth a c (XmlText.proper_children hp c hc) hr ⟨s, hs, hb⟩ ht⟩) y.children 0 hc
      exact ⟨e, by rw [he]; rfl⟩
  obtain ⟨e, he⟩ := key
  refine ⟨e, ?_⟩
  unfold addTemplateText
  simp only [loadRead_given hg, ok_bind, addAllTexts, loadText, hy, he, err_bind]

end TTP
