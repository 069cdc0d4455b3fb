import Verif.Proofs.XmlEq
import Verif.Proofs.Extend
/-!
# XML texts: the result of `extend` tags is written and read again
-/

namespace TTP
open Py Spec
namespace XmlText

theorem parse_proper {s : Str} {x : Xml} (h : parse s = some x) : ProperXml x ∧ x.tail = none := document_proper ((parse_iff _ _).1 h)

theorem properXmls_iff {cs : List Xml} : ProperXmls cs ↔ ∀ x ∈ cs, ProperXml x := by
  constructor
  · intro h
    induction cs with
    | nil => intro x hx; cases hx
    | cons y ys ih =>
      cases h with
      | cons h1 h2 =>
        intro x hx
        rcases List.mem_cons.1 hx with rfl | hx
        · exact h1
        · exact ih h2 x hx
  · intro h
    induction cs with
    | nil => exact .nil
    | cons y ys ih => exact .cons (h y (by simp)) (ih (fun x hx => h x (by simp [hx])))

theorem proper_text {x : Xml} (h : ProperXml x) : ProperText x.text := by cases h; assumption
theorem proper_children {x : Xml} (h : ProperXml x) : ∀ y ∈ x.children, ProperXml y := by cases h with | mk _ _ _ _ _ h _ => exact properXmls_iff.1 h

theorem textTree_proper {u : Str} (h : ∀ c ∈ c!"\n" ++ u ++ c!"\n", XChar c) : ProperXml (textTree u) := by
  have ht : ProperText (some (c!"\n" ++ u ++ c!"\n")) := ⟨by simp, by intro s e; cases e; exact h⟩
  have hn : ProperText none := ⟨by simp, by intro s e; cases e⟩
  refine .mk name_template (by simp) (by simp) (by simp) hn (.cons (.mk name_group ?_ (by simp) (by decide) ht .nil hn) .nil) hn
  intro p hp
  simp only [List.mem_singleton] at hp
  subst hp
  refine ⟨name_name, ?_⟩
  intro c hc
  exact (fine_list (s := c!"_anonymous_") (by decide) c hc).1

theorem tree_proper {s : Str} {x : Xml} (h : TreeOf parse s x) : ProperXml x ∧ x.tail = none := by
  cases h with
  | whole h1 _ _ => exact parse_proper h1
  | parts _ h2 _ => exact parse_proper h2
  | text h =>
    refine ⟨textTree_proper ?_, rfl⟩
    have := (parse_proper h.inTemplate).1
    exact (proper_text this).2 _ rfl

theorem extended_proper {w : World} {macros : Str → Option (Str → PyM Str)} {a : Dict Str Str} {e : Xml} (h : Extended w parse macros a e) : ProperXml e := by
  cases h with
  | mk _ _ _ _ ht => exact (tree_proper ht).1

theorem taken_mem {top : Bool} {a : Dict Str Str} {k : Nat} {xs ys : List Xml} (h : TakenOf top a k xs ys) : ∀ y ∈ ys, y ∈ xs := by
  induction h with
  | nil => intro y hy; cases hy
  | keep _ _ _ _ ih =>
    intro y hy
    rcases List.mem_cons.1 hy with rfl | hy
    · simp
    · simp [ih y hy]
  | drop _ _ _ _ ih => intro y hy; simp [ih y hy]

theorem expands_proper {w : World} {macros : Str → Option (Str → PyM Str)} {own top : Bool} {t t' : Option Str} {xs ys : List Xml}
    (h : Expands w parse macros own top t xs t' ys) : ProperText t → (∀ x ∈ xs, ProperXml x) → ProperText t' ∧ ∀ y ∈ ys, ProperXml y := by
  induction h with
  | nil => intro ht _; exact ⟨ht, by simp⟩
  | other _ _ _ ih =>
    intro ht hx
    obtain ⟨h1, h2⟩ := ih ht (fun x hx' => hx x (by simp [hx']))
    refine ⟨h1, fun y hy => ?_⟩
    rcases List.mem_cons.1 hy with rfl | hy
    · exact hx _ (by simp)
    · exact h2 y hy
  | group _ _ ih1 ih2 =>
    intro ht hx
    obtain ⟨h1, h2⟩ := ih2 ht (fun x hx' => hx x (by simp [hx']))
    refine ⟨h1, fun y hy => ?_⟩
    rcases List.mem_cons.1 hy with rfl | hy
    · have := hx _ (List.mem_cons_self ..)
      cases this with
      | mk g1 g2 g3 g4 g5 g6 g7 =>
        obtain ⟨k1, k2⟩ := ih1 g5 (properXmls_iff.1 g6)
        exact .mk g1 g2 g3 g4 k1 (properXmls_iff.2 k2) g7
    · exact h2 y hy
  | extend he _ htk _ _ _ ih1 ih2 =>
    intro ht hx
    obtain ⟨h1, h2⟩ := ih2 ht (fun x hx' => hx x (by simp [hx']))
    refine ⟨h1, fun y hy => ?_⟩
    rcases List.mem_append.1 hy with hy | hy
    · exact (ih1 ⟨by simp, by intro s e; cases e⟩ (fun x hx' => proper_children (extended_proper he) x (taken_mem htk x hx'))).2 y hy
    · exact h2 y hy
  | plain he hpl ht0 _ _ ih =>
    intro ht hx
    subst ht0
    obtain ⟨g, h1, h2, h3⟩ := hpl
    have hg := proper_text (proper_children (extended_proper he) g (by rw [h1]; simp))
    rw [h3] at hg
    refine ih ?_ (fun x hx' => hx x (by simp [hx']))
    refine ⟨?_, ?_⟩
    · intro e
      simp only [Option.some.injEq, List.append_eq_nil_iff] at e
      exact ht.1 (by rw [e.1])
    · intro s e
      cases e
      intro c hc
      rcases List.mem_append.1 hc with hc | hc
      · exact ht.2 _ rfl c hc
      · exact hg.2 _ rfl c hc

theorem unixLines_other {c : Char} (h : c ≠ '\r') (s : Str) : unixLines (c :: s) = c :: unixLines s :=
  (unixLines_iff _ _).2 (.other c h ((unixLines_iff _ _).1 rfl))

theorem unixLines_plain {p : Str} (h : '\r' ∉ p) (s : Str) : unixLines (p ++ s) = p ++ unixLines s := by
  induction p with
  | nil => rfl
  | cons c p ih =>
    rw [List.cons_append, unixLines_other (by intro e; exact h (by simp [e])), ih (by intro e; exact h (by simp [e]))]
    rfl

theorem attrs_first {s : Str} {as : List (Str × Str)} (h : XAttrs s as) {r : Str} (hr : NotFirst isNameChar r) : NotFirst isNameChar (s ++ r) := by
  cases h with
  | nil => exact hr
  | @cons w _ _ _ _ _ _ _ _ h1 h2 =>
    cases w with
    | nil => exact absurd rfl h2
    | cons c w =>
      intro d q e
      simp only [List.cons_append, List.cons.injEq] at e
      rw [← e.1]
      rcases h1 c (by simp) with rfl | rfl | rfl <;> decide

theorem blank_first {w : Str} (h : XBlank w) {r : Str} (hr : NotFirst isNameChar r) : NotFirst isNameChar (w ++ r) := by
  cases w with
  | nil => exact hr
  | cons c w =>
    intro d q e
    simp only [List.cons_append, List.cons.injEq] at e
    rw [← e.1]
    rcases h c (by simp) with rfl | rfl | rfl <;> decide

/-- a text that begins with the start tag `<n>` is an element with this name -/
theorem root_tag {n r : Str} (hn : XName n) {x : Xml} (h : parse ('<' :: (n ++ ('>' :: r))) = some x) : x.tag = n := by
  unfold parse at h
  split at h
  · have hne : '\r' ∉ '<' :: (n ++ ['>']) := by
      intro hm
      simp only [List.mem_cons, List.mem_append, List.not_mem_nil, or_false] at hm
      rcases hm with hm | hm | hm
      · revert hm; decide
      · exact (fine_name hn _ hm).2 rfl
      · revert hm; decide
    have e : '<' :: (n ++ ('>' :: r)) = ('<' :: (n ++ ['>'])) ++ r := by simp
    rw [dropBom_self (by decide), e, unixLines_plain hne] at h
    obtain ⟨a, t, b, m, at_, v, cs, e1, rfl, ha, ht, hb⟩ := (element_iff _ _).1 h
    obtain ⟨c0, n0, hn0, hc0⟩ := name_head hn
    have ha0 : a = [] := by
      cases ha with
      | nil => rfl
      | blank c hc _ =>
        simp only [List.cons_append, List.cons.injEq] at e1
        rcases hc c (by simp) with h | h | h <;> (rw [← e1.1] at h; exact absurd h (by decide))
      | note hno _ =>
        exfalso
        rw [hn0] at e1
        rcases (xnote_iff _).1 hno with ⟨q, rfl, _⟩ | ⟨q, rfl, _⟩ <;>
          (simp only [List.cons_append, List.cons.injEq] at e1; rw [e1.2.1] at hc0; revert hc0; decide)
    subst ha0
    have key : ∀ {tt q : Str}, XTag tt m at_ → NotFirst isNameChar q → n ++ ('>' :: unixLines r) = tt ++ q → m = n := by
      intro tt q htag hq e2
      cases htag with
      | @mk _ s w _ h1 h2 h3 h4 h5 =>
        have k1 : name (n ++ ('>' :: unixLines r)) = some (n, '>' :: unixLines r) :=
          name_complete hn (by intro d z e; simp only [List.cons.injEq] at e; rw [← e.1]; decide)
        have k2 : name (m ++ (s ++ (w ++ q))) = some (m, s ++ (w ++ q)) := name_complete h1 (attrs_first h2 (blank_first h5 hq))
        have e3 : m ++ (s ++ w) ++ q = m ++ (s ++ (w ++ q)) := by simp
        rw [e2, e3, k2] at k1
        simp only [Option.some.injEq, Prod.mk.injEq] at k1
        exact k1.1
    show m = n
    cases ht with
    | @empty t _ _ htag =>
      refine key htag (q := c!"/>" ++ b) (by intro d z e; simp only [List.cons_append, List.cons.injEq] at e; rw [← e.1]; decide) ?_
      simpa using e1
    | @full t _ s _ w _ _ htag _ _ =>
      refine key htag (q := '>' :: (s ++ (c!"</" ++ (m ++ (w ++ ['>']))) ++ b)) (by intro d z e; simp only [List.cons.injEq] at e; rw [← e.1]; decide) ?_
      simpa using e1
  · cases h

theorem tree_tag {s : Str} {x : Xml} (h : TreeOf parse s x) : lower x.tag = c!"template" := by
  cases h with
  | whole _ h _ => exact h
  | text _ => show lower c!"template" = c!"template"; decide
  | parts _ h2 _ =>
    have e : c!"<template>\n" ++ s ++ c!"\n</template>" = '<' :: (c!"template" ++ ('>' :: (c!"\n" ++ s ++ c!"\n</template>"))) := by simp
    rw [e] at h2
    rw [root_tag name_template h2]
    decide

theorem expands_reread {w : World} {macros : Str → Option (Str → PyM Str)} {text : Str} {x : Xml} (hx : TreeOf parse text x) {t : Option Str} {ys : List Xml}
    (h : Expands w parse macros true true x.text x.children t ys) (hne : ys ≠ []) (hr : NoReturns (.mk x.tag x.attrib t ys x.tail)) :
    TreeOf parse (tostring true (.mk x.tag x.attrib t ys x.tail)) (.mk x.tag x.attrib t ys x.tail) := by
  obtain ⟨hp, htl⟩ := tree_proper hx
  have htag := tree_tag hx
  obtain ⟨h1, h2⟩ := expands_proper h (proper_text hp) (proper_children hp)
  refine .whole (parse_tostring true ?_ hr htl) htag hne
  cases hp with
  | mk g1 g2 g3 g4 g5 g6 g7 => exact .mk g1 g2 g3 g4 h1 (properXmls_iff.2 h2) g7

end XmlText
end TTP
