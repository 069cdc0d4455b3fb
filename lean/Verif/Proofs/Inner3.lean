import Verif.Proofs.Inner
import Verif.Proofs.Inner2
/-!
# Templates inside of templates that are followed by text
-/

namespace TTP
open Py Spec

namespace XmlText

theorem encode_false (s : Str) : encode false s = s := by
  induction s with
  | nil => rfl
  | cons c s ih =>
    rw [encode_cons, ih]
    rfl

/-- what stands after the last `>` -/
theorem last_gt {a b p q : Str} (h : a ++ '>' :: p = b ++ '>' :: q) (hp : '>' ∉ p) (hq : '>' ∉ q) : p = q := by
  rcases List.append_eq_append_iff.1 h with ⟨c, h1, h2⟩ | ⟨c, h1, h2⟩
  · cases c with
    | nil => simpa using h2
    | cons d c =>
      rw [List.cons_append, List.cons.injEq] at h2
      exact absurd (by rw [h2.2]; simp) hp
  · cases c with
    | nil => simpa using h2.symm
    | cons d c =>
      rw [List.cons_append, List.cons.injEq] at h2
      exact absurd (by rw [h2.2]; simp) hq

theorem note_gt {t : Str} (h : XNote t) : ∃ u, t = u ++ ['>'] := by
  cases h with
  | @comment t _ => exact ⟨c!"<!--" ++ (t ++ c!"--"), by simp⟩
  | @instruction n _ _ => exact ⟨c!"<?" ++ (n ++ c!"?"), by simp⟩
  | @instructionText n t c _ _ _ _ => exact ⟨c!"<?" ++ (n ++ (c :: (t ++ c!"?"))), by simp⟩

theorem misc_gt {s : Str} (h : XMisc s) : ∃ p q, s = p ++ q ∧ XBlank q ∧ (p = [] ∨ ∃ u, p = u ++ ['>']) := by
  induction h with
  | nil => exact ⟨[], [], rfl, (by intro c hc; cases hc), Or.inl rfl⟩
  | @blank c s hc _ ih =>
    obtain ⟨p, q, rfl, h1, h2⟩ := ih
    rcases h2 with rfl | ⟨u, rfl⟩
    · refine ⟨[], c :: q, rfl, ?_, Or.inl rfl⟩
      intro d hd
      rcases List.mem_cons.1 hd with rfl | hd
      · exact hc d (by simp)
      · exact h1 d hd
    · exact ⟨c :: (u ++ ['>']), q, rfl, h1, Or.inr ⟨c :: u, rfl⟩⟩
  | @note t s ht _ ih =>
    obtain ⟨p, q, rfl, h1, h2⟩ := ih
    rcases h2 with rfl | ⟨u, rfl⟩
    · obtain ⟨v, rfl⟩ := note_gt ht
      exact ⟨v ++ ['>'], q, rfl, h1, Or.inr ⟨v, rfl⟩⟩
    · exact ⟨t ++ (u ++ ['>']), q, by simp, h1, Or.inr ⟨t ++ u, by simp⟩⟩

theorem element_gt {t n v : Str} {a : List (Str × Str)} {cs : List Xml} (h : XElement t n a v cs) : ∃ u, t = u ++ ['>'] := by
  cases h with
  | @empty t _ _ _ => exact ⟨'<' :: (t ++ ['/']), by simp⟩
  | @full t n s v w _ _ _ _ _ => exact ⟨'<' :: (t ++ ('>' :: (s ++ (c!"</" ++ (n ++ w))))), by simp⟩

theorem escText_gt (s : Str) : '>' ∉ s.flatMap escText := by
  intro h
  obtain ⟨c, _, hc⟩ := List.mem_flatMap.1 h
  revert hc
  unfold escText
  split
  · decide
  · split
    · decide
    · split
      · decide
      · rename_i h; simpa using fun e => h e.symm

theorem escText_blank {s : Str} (h : XBlank (s.flatMap escText)) : XBlank s := by
  intro c hc
  have key : ∀ d ∈ escText c, d = ' ' ∨ d = '\t' ∨ d = '\n' := fun d hd => h d (List.mem_flatMap.2 ⟨c, hc, hd⟩)
  revert key
  unfold escText
  split
  · intro k; exact absurd (k '&' (by simp)) (by decide)
  · split
    · intro k; exact absurd (k '&' (by simp)) (by decide)
    · split
      · intro k; exact absurd (k '&' (by simp)) (by decide)
      · intro k; exact k c (by simp)

/-- an element that is followed by text is not a document -/
theorem parse_tail {x : Xml} (hp : ProperXml x) (hr : NoReturns x) {s : Str} (hs : x.tail = some s) (hb : ¬ XBlank s) :
    parse (tostring false x) = none := by
  cases hpx : parse (tostring false x) with
  | none => rfl
  | some y =>
    exfalso
    have hd := (parse_iff _ _).1 hpx
    obtain ⟨t, h1, h2, _⟩ := serialize_element (ascii := false) hp
    have hf := fine_encode (ascii := false) (fine_serialize hp hr)
    have hfirst : ∃ r, tostring false x = '<' :: r := by
      unfold tostring
      rw [encode_false]
      cases x with
      | mk n a t cs tl => exact ⟨_, by rw [serialize]⟩
    have e1 : tostring false x = t ++ s.flatMap escText := by
      unfold tostring
      rw [h2, hs, encode_false]
      rfl
    generalize hT : tostring false x = T at hd e1 hfirst
    cases hd with
    | @mk bom s' a t' b n v at_ cs g1 g2 g3 g4 g5 g6 =>
      have hbom : bom = [] := by
        rcases g2 with g2 | ⟨c, rfl, hc⟩
        · exact g2
        · obtain ⟨r, hr⟩ := hfirst
          rw [List.singleton_append, List.cons.injEq] at hr
          rw [hr.1] at hc
          exact absurd hc (by decide)
      subst hbom
      rw [List.nil_append] at hT e1
      have hnr : '\r' ∉ s' := by
        intro h
        rw [← hT] at h
        exact (hf _ h).2 rfl
      have e2 : s' = a ++ (t' ++ b) := by
        rw [← unixLines_iff] at g3
        rw [← g3]
        exact ((unixLines_iff _ _).2 (unix_self hnr)).symm
      obtain ⟨p, q, rfl, hq, hpq⟩ := misc_gt g6
      obtain ⟨u, rfl⟩ := element_gt h1
      obtain ⟨u', rfl⟩ := element_gt g5
      have hqn : '>' ∉ q := by
        intro h
        rcases hq _ h with e | e | e <;> exact absurd e (by decide)
      have : s.flatMap escText = q := by
        rcases hpq with rfl | ⟨w, rfl⟩
        · refine last_gt (a := u) (b := a ++ u') ?_ (escText_gt s) hqn
          rw [e1] at e2
          simpa using e2
        · refine last_gt (a := u) (b := a ++ (u' ++ ('>' :: w))) ?_ (escText_gt s) hqn
          rw [e1] at e2
          simpa using e2
      rw [← this] at hq
      exact hb (escText_blank hq)

/-- the element with a text after it -/
def withTail (x : Xml) (tl : Str) : Xml := .mk x.tag x.attrib x.text x.children (some (x.tail.getD [] ++ tl))

theorem serialize_withTail (x : Xml) {tl : Str} : serialize (withTail x tl) = serialize x ++ tl.flatMap escText := by
  obtain ⟨n, a, t, cs, o⟩ := x
  unfold withTail
  rw [serialize, serialize]
  simp [Xml.tag, Xml.attrib, Xml.text, Xml.children, Xml.tail]

theorem shown_fine {q : Char} (hq : Quote q) (s : Str) : ∀ c ∈ s.flatMap (reprChar q), Fine c := by
  intro c hc
  obtain ⟨d, _, hd⟩ := List.mem_flatMap.1 hc
  have := (reprChar_chars hq d).2 c hd
  exact fine_ascii this.1 (by omega)

theorem showText_proper {q : Char} (hq : Quote q) {t : Option Str} (h : ProperText t) : ProperText (showText q t) := by
  cases t with
  | none => exact ⟨by simp [showText], by intro s e; cases e⟩
  | some s =>
    refine ⟨?_, ?_⟩
    · intro e
      have e' : s.flatMap (reprChar q) = [] := Option.some.inj e
      have : s.isEmpty = true := by rw [← flatMap_empty hq, e']; rfl
      exact h.1 (by rw [List.isEmpty_iff.1 this])
    · intro u e c hc
      have e' : s.flatMap (reprChar q) = u := Option.some.inj e
      rw [← e'] at hc
      exact (shown_fine hq s c hc).1

theorem showText_noReturn {q : Char} (hq : Quote q) (t : Option Str) : NoReturnText (showText q t) := by
  cases t with
  | none => intro s e; cases e
  | some s =>
    intro u e hc
    have e' : s.flatMap (reprChar q) = u := Option.some.inj e
    rw [← e'] at hc
    exact (shown_fine hq s _ hc).2 rfl

theorem showAttr_char {c : Char} (h : XChar c) : ∀ d ∈ showAttr c, XChar d := by
  unfold showAttr
  split
  · intro d hd; rw [List.mem_singleton] at hd; rw [hd]; exact h
  · intro d hd
    have := (reprChar_chars (Or.inl rfl) c).2 d hd
    exact (fine_ascii this.1 (by omega)).1

mutual
theorem show_proper {q : Char} (hq : Quote q) : ∀ {x : Xml}, ProperXml x → ProperXml (showXml q x)
  | _, @ProperXml.mk n a t tl cs hn ha hnd hx ht hcs htl => by
    have e : (showAttrs a).map Prod.fst = a.map Prod.fst := by unfold showAttrs; rw [List.map_map]; rfl
    rw [showXml]
    refine .mk hn ?_ (by rw [e]; exact hnd) (by rw [e]; exact hx) (showText_proper hq ht) (showAll_proper hq hcs) (showText_proper hq htl)
    intro p hp
    unfold showAttrs at hp
    obtain ⟨r, hr, rfl⟩ := List.mem_map.1 hp
    refine ⟨(ha r hr).1, ?_⟩
    intro c hc
    obtain ⟨d, hd, hc⟩ := List.mem_flatMap.1 hc
    exact showAttr_char ((ha r hr).2 d hd) c hc
theorem showAll_proper {q : Char} (hq : Quote q) : ∀ {cs : List Xml}, ProperXmls cs → ProperXmls (showAll q cs)
  | _, .nil => .nil
  | _, .cons hx hxs => .cons (show_proper hq hx) (showAll_proper hq hxs)
end

mutual
theorem show_noReturns {q : Char} (hq : Quote q) : ∀ (x : Xml), NoReturns (showXml q x)
  | .mk n a t cs tl => by rw [showXml]; exact .mk (showText_noReturn hq t) (showAll_noReturns hq cs) (showText_noReturn hq tl)
theorem showAll_noReturns {q : Char} (hq : Quote q) : ∀ (cs : List Xml), NoReturnsAll (showAll q cs)
  | [] => .nil
  | x :: xs => .cons (show_noReturns hq x) (showAll_noReturns hq xs)
end

theorem show_tag (q : Char) (x : Xml) : (showXml q x).tag = x.tag := by cases x; rfl

/-- the element in the text that is made of the bytes -/
def shown (q : Char) (x : Xml) : Xml := withTail (showXml q x) [q, '\n']

theorem shown_tag (q : Char) (x : Xml) : (shown q x).tag = x.tag := show_tag q x

theorem shown_proper {q : Char} (hq : Quote q) {x : Xml} (h : ProperXml x) : ProperXml (shown q x) := by
  have := show_proper hq h
  unfold shown withTail
  generalize showXml q x = y at this
  cases this with
  | @mk n a t tl cs hn ha hnd hx ht hcs htl =>
    refine .mk hn ha hnd hx ht hcs ⟨by simp, ?_⟩
    intro s e c hc
    have e' : tl.getD [] ++ [q, '\n'] = s := Option.some.inj e
    rw [← e'] at hc
    rcases List.mem_append.1 hc with hc | hc
    · cases tl with
      | none => cases hc
      | some u => exact htl.2 u rfl c hc
    · simp only [List.mem_cons, List.not_mem_nil, or_false] at hc
      rcases hc with rfl | rfl
      · rcases hq with rfl | rfl
        · exact (fine_ascii (by decide) (by decide)).1
        · exact (fine_ascii (by decide) (by decide)).1
      · exact Or.inr (Or.inl rfl)

theorem shown_noReturns {q : Char} (hq : Quote q) (x : Xml) : NoReturns (shown q x) := by
  have := show_noReturns hq x
  unfold shown withTail
  generalize showXml q x = y at this
  cases this with
  | @mk n a t tl cs h1 h2 h3 =>
    refine .mk h1 h2 ?_
    intro s e hc
    have e' : tl.getD [] ++ [q, '\n'] = s := Option.some.inj e
    rw [← e'] at hc
    rcases List.mem_append.1 hc with hc | hc
    · cases tl with
      | none => cases hc
      | some u => exact h3 u rfl hc
    · simp only [List.mem_cons, List.not_mem_nil, or_false] at hc
      rcases hc with e | e
      · rcases hq with rfl | rfl <;> exact absurd e (by decide)
      · exact absurd e (by decide)

theorem shown_tail {q : Char} (hq : Quote q) (x : Xml) : ∃ s, (shown q x).tail = some s ∧ ¬ XBlank s := by
  refine ⟨_, rfl, fun h => ?_⟩
  have := h q (by simp)
  rcases hq with rfl | rfl <;> exact absurd this (by decide)

theorem reprQuote_quote (s : Str) : Quote (reprQuote s) := by
  unfold reprQuote
  split
  · exact Or.inr rfl
  · exact Or.inl rfl

/-- the bytes of an element as they are shown -/
theorem bytesRepr_element {x : Xml} (hp : ProperXml x) :
    bytesRepr (tostring false x) ++ c!"\n" = 'b' :: reprQuote (serialize x) :: serialize (shown (reprQuote (serialize x)) x) := by
  have hq := reprQuote_quote (serialize x)
  have hb : reprQuote (serialize x) = '\'' ∨ '"' ∉ serialize x := by
    unfold reprQuote
    split
    · rename_i h; exact Or.inr h.2
    · exact Or.inl rfl
  unfold bytesRepr tostring
  rw [encode_false]
  generalize reprQuote (serialize x) = q at *
  unfold shown
  rw [serialize_withTail, ← serialize_show hq hp hb]
  have e : [q, '\n'].flatMap escText = [q, '\n'] := by rcases hq with rfl | rfl <;> decide
  rw [e]
  simp

/-- the template that is made of bytes of an element with what is between the tags -/
def around (x : Xml) : Xml :=
  .mk c!"template" [] (some ['\n', 'b', reprQuote (serialize x)]) [shown (reprQuote (serialize x)) x] none

theorem quote_fine {q : Char} (hq : Quote q) : ∀ c ∈ ['\n', 'b', q], Fine c := by
  intro c hc
  simp only [List.mem_cons, List.not_mem_nil, or_false] at hc
  rcases hc with rfl | rfl | rfl
  · exact ⟨Or.inr (Or.inl rfl), by decide⟩
  · exact fine_ascii (by decide) (by decide)
  · rcases hq with rfl | rfl
    · exact fine_ascii (by decide) (by decide)
    · exact fine_ascii (by decide) (by decide)

theorem quote_proper {q : Char} (hq : Quote q) : ProperText (some ['\n', 'b', q]) :=
  ⟨by simp, by intro s e c hc; cases e; exact (quote_fine hq c hc).1⟩

theorem quote_noReturn {q : Char} (hq : Quote q) : NoReturnText (some ['\n', 'b', q]) := by
  intro s e hc; cases e; exact (quote_fine hq _ hc).2 rfl

theorem proper_none : ProperText none := ⟨by simp, by intro s e; cases e⟩
theorem noReturn_none : NoReturnText none := by intro s e; cases e

theorem around_proper {x : Xml} (hp : ProperXml x) : ProperXml (around x) :=
  .mk name_template (by simp) (by simp) (by simp) (quote_proper (reprQuote_quote _)) (.cons (shown_proper (reprQuote_quote _) hp) .nil) proper_none

theorem around_noReturns (x : Xml) : NoReturns (around x) :=
  .mk (quote_noReturn (reprQuote_quote _)) (.cons (shown_noReturns (reprQuote_quote _) x) .nil) noReturn_none

theorem escText_quote {q : Char} (hq : Quote q) : ['\n', 'b', q].flatMap escText = ['\n', 'b', q] := by
  rcases hq with rfl | rfl <;> decide

theorem around_text {x : Xml} (hp : ProperXml x) :
    c!"<template>\n" ++ bytesRepr (tostring false x) ++ c!"\n</template>" = tostring false (around x) := by
  have e := bytesRepr_element hp
  unfold tostring at e ⊢
  rw [encode_false] at e ⊢
  unfold around
  rw [serialize, if_neg (by simp)]
  simp only [Option.getD_some, Option.getD_none, escText_quote (reprQuote_quote _), serializeAll, List.append_nil, List.flatMap_nil]
  have e3 : c!"<template>\n" ++ bytesRepr (encode false (serialize x)) ++ c!"\n</template>" =
      c!"<template>\n" ++ ((bytesRepr (serialize x) ++ c!"\n") ++ c!"</template>") := by
    rw [encode_false]
    show _ ++ _ ++ (c!"\n" ++ c!"</template>") = _
    simp only [List.append_assoc]
  rw [encode_false] at e3
  rw [e3, e, encode_false]
  simp

theorem parse_around {x : Xml} (hp : ProperXml x) :
    parse (c!"<template>\n" ++ bytesRepr (tostring false x) ++ c!"\n</template>") = some (around x) := by
  rw [around_text hp]
  exact parse_tostring false (around_proper hp) (around_noReturns x) rfl

/-- the group that is made of the bytes of an element -/
def groupAround (x : Xml) : Xml :=
  .mk c!"group" [(c!"name", c!"_anonymous_")] (some ['\n', 'b', reprQuote (serialize x)]) [shown (reprQuote (serialize x)) x] none

def templateAround (x : Xml) : Xml := .mk c!"template" [] none [groupAround x] none

theorem groupAround_proper {x : Xml} (hp : ProperXml x) : ProperXml (templateAround x) := by
  refine .mk name_template (by simp) (by simp) (by simp) proper_none (.cons (.mk name_group ?_ (by simp) (by decide) (quote_proper (reprQuote_quote _))
    (.cons (shown_proper (reprQuote_quote _) hp) .nil) proper_none) .nil) proper_none
  intro p h
  rw [List.mem_singleton] at h
  subst h
  refine ⟨name_name, ?_⟩
  intro c hc
  have : ∀ d ∈ c!"_anonymous_", 32 ≤ d.toNat ∧ d.toNat < 128 := by decide
  exact (fine_ascii (this c hc).1 (this c hc).2).1

theorem groupAround_noReturns (x : Xml) : NoReturns (templateAround x) :=
  .mk noReturn_none (.cons (.mk (quote_noReturn (reprQuote_quote _)) (.cons (shown_noReturns (reprQuote_quote _) x) .nil) noReturn_none) .nil) noReturn_none

theorem groupAround_text {x : Xml} (hp : ProperXml x) :
    c!"<template><group name=\"_anonymous_\">\n" ++ bytesRepr (tostring false x) ++ c!"\n</group></template>" = tostring false (templateAround x) := by
  have e := bytesRepr_element hp
  unfold tostring at e ⊢
  rw [encode_false] at e ⊢
  unfold templateAround groupAround
  rw [serialize, if_neg (by simp), serializeAll, serializeAll, serialize, if_neg (by simp)]
  simp only [Option.getD_some, Option.getD_none, escText_quote (reprQuote_quote _), serializeAll, List.append_nil, List.flatMap_nil]
  have e3 : c!"<template><group name=\"_anonymous_\">\n" ++ bytesRepr (encode false (serialize x)) ++ c!"\n</group></template>" =
      c!"<template><group name=\"_anonymous_\">\n" ++ ((bytesRepr (serialize x) ++ c!"\n") ++ c!"</group></template>") := by
    rw [encode_false]
    show _ ++ _ ++ (c!"\n" ++ c!"</group></template>") = _
    simp only [List.append_assoc]
  rw [encode_false] at e3
  rw [e3, e, encode_false]
  have e4 : [((c!"name" : Str), (c!"_anonymous_" : Str))].flatMap attrText = c!" name=\"_anonymous_\"" := by decide
  rw [e4]
  show _ = _
  simp

theorem parse_groupAround {x : Xml} (hp : ProperXml x) :
    parse (c!"<template><group name=\"_anonymous_\">\n" ++ bytesRepr (tostring false x) ++ c!"\n</group></template>") = some (templateAround x) := by
  rw [groupAround_text hp]
  exact parse_tostring false (groupAround_proper hp) (groupAround_noReturns x) rfl

end XmlText
end TTP
