import Verif.Proofs.Inner
/-!
# Templates inside of templates: bytes as Python shows them
-/

namespace TTP
open Py Spec
namespace XmlText

/-! ## Characters -/

theorem ascii_cases {P : Char → Prop} (h : ∀ n, n < 128 → P (Char.ofNat n)) (c : Char) (hc : c.toNat < 128) : P c := by
  have := h c.toNat hc
  rwa [Char.ofNat_toNat] at this

theorem utf8_big {c : Char} (h : 128 ≤ c.toNat) : ∀ b ∈ utf8 c, 128 ≤ b ∧ b < 256 := by
  have hv : c.toNat < 0x110000 := by
    have := c.valid
    rcases this with h | ⟨_, h⟩
    · have : c.toNat < 0xD800 := h
      omega
    · exact h
  intro b hb
  unfold utf8 at hb
  dsimp only at hb
  rw [if_neg (by omega)] at hb
  split at hb
  · simp only [List.mem_cons, List.not_mem_nil, or_false] at hb; omega
  · split at hb
    · simp only [List.mem_cons, List.not_mem_nil, or_false] at hb; omega
    · simp only [List.mem_cons, List.not_mem_nil, or_false] at hb; omega

/-- one of the two quotes -/
def Quote (q : Char) : Prop := q = '\'' ∨ q = '"'

theorem byte_facts : ∀ q ∈ ['\'', '"'], ∀ b, b < 256 → 128 ≤ b → (reprByte q b).flatMap escText = reprByte q b ∧ (reprByte q b).flatMap escAttr = reprByte q b ∧
    reprByte q b ≠ [] ∧ ∀ d ∈ reprByte q b, 32 ≤ d.toNat ∧ d.toNat < 127 := by decide +kernel

theorem ascii_facts : ∀ q ∈ ['\'', '"'], ∀ n, n < 128 → (escText (Char.ofNat n)).flatMap (reprChar q) = (reprChar q (Char.ofNat n)).flatMap escText ∧
    reprChar q (Char.ofNat n) ≠ [] ∧ ∀ d ∈ reprChar q (Char.ofNat n), 32 ≤ d.toNat ∧ d.toNat < 127 := by decide +kernel

/-- how the character of an attribute is shown: line ends and tabs are written as references before -/
def showAttr (c : Char) : Str := if c = '\r' ∨ c = '\n' ∨ c = '\t' then [c] else reprChar '\'' c

theorem ascii_attr : ∀ n, n < 128 → (escAttr (Char.ofNat n)).flatMap (reprChar '\'') = (showAttr (Char.ofNat n)).flatMap escAttr := by decide +kernel

theorem name_facts : ∀ q ∈ ['\'', '"'], ∀ n, n < 128 → isNameChar (Char.ofNat n) = true → reprChar q (Char.ofNat n) = [Char.ofNat n] := by decide +kernel

theorem flatMap_id {f : Char → Str} {s : Str} (h : ∀ c ∈ s, f c = [c]) : s.flatMap f = s := by
  induction s with
  | nil => rfl
  | cons c s ih => rw [List.flatMap_cons, h c (by simp), ih (fun d hd => h d (by simp [hd]))]; rfl

theorem escText_big {c : Char} (h : 128 ≤ c.toNat) : escText c = [c] := by
  unfold escText
  rw [if_neg, if_neg, if_neg]
  all_goals (rintro rfl; revert h; decide)

theorem escAttr_big {c : Char} (h : 128 ≤ c.toNat) : escAttr c = [c] := by
  unfold escAttr
  rw [if_neg, if_neg, if_neg, if_neg, if_neg, if_neg, if_neg]
  all_goals (rintro rfl; revert h; decide)

theorem bytes_flatMap {f : Char → Str} {q : Char} {bs : List Nat} (h : ∀ b ∈ bs, (reprByte q b).flatMap f = reprByte q b) :
    (bs.flatMap (reprByte q)).flatMap f = bs.flatMap (reprByte q) := by
  induction bs with
  | nil => rfl
  | cons b bs ih => rw [List.flatMap_cons, List.flatMap_append, h b (by simp), ih (fun d hd => h d (by simp [hd]))]

theorem quote_mem {q : Char} (h : Quote q) : q ∈ ['\'', '"'] := by rcases h with rfl | rfl <;> simp

theorem show_text {q : Char} (hq : Quote q) (c : Char) : (escText c).flatMap (reprChar q) = (reprChar q c).flatMap escText := by
  by_cases h : c.toNat < 128
  · exact ascii_cases (P := fun c => (escText c).flatMap (reprChar q) = (reprChar q c).flatMap escText) (fun n hn => (ascii_facts q (quote_mem hq) n hn).1) c h
  · rw [escText_big (by omega), List.flatMap_cons, List.flatMap_nil, List.append_nil]
    unfold reprChar
    rw [bytes_flatMap]
    intro b hb
    have := utf8_big (c := c) (by omega) b hb
    exact (byte_facts q (quote_mem hq) b this.2 this.1).1

theorem show_attr (c : Char) : (escAttr c).flatMap (reprChar '\'') = (showAttr c).flatMap escAttr := by
  by_cases h : c.toNat < 128
  · exact ascii_cases (P := fun c => (escAttr c).flatMap (reprChar '\'') = (showAttr c).flatMap escAttr) ascii_attr c h
  · have : showAttr c = reprChar '\'' c := by
      unfold showAttr
      rw [if_neg]
      rintro (rfl | rfl | rfl) <;> exact h (by decide)
    rw [this, escAttr_big (by omega), List.flatMap_cons, List.flatMap_nil, List.append_nil]
    unfold reprChar
    rw [bytes_flatMap]
    intro b hb
    have := utf8_big (c := c) (by omega) b hb
    exact (byte_facts '\'' (by simp) b this.2 this.1).2.1

theorem reprChar_chars {q : Char} (hq : Quote q) (c : Char) : reprChar q c ≠ [] ∧ ∀ d ∈ reprChar q c, 32 ≤ d.toNat ∧ d.toNat < 127 := by
  by_cases h : c.toNat < 128
  · exact ascii_cases (P := fun c => reprChar q c ≠ [] ∧ ∀ d ∈ reprChar q c, 32 ≤ d.toNat ∧ d.toNat < 127)
      (fun n hn => (ascii_facts q (quote_mem hq) n hn).2) c h
  · have hb := utf8_big (c := c) (by omega)
    constructor
    · intro e
      unfold reprChar at e
      rw [List.flatMap_eq_nil_iff] at e
      have hne : utf8 c ≠ [] := by
        unfold utf8; dsimp only
        split <;> (try split) <;> (try split) <;> simp
      obtain ⟨b, bs, hbs⟩ := List.exists_cons_of_ne_nil hne
      have hmem : b ∈ utf8 c := by rw [hbs]; simp
      exact (byte_facts q (quote_mem hq) b (hb b hmem).2 (hb b hmem).1).2.2.1 (e b hmem)
    · intro d hd
      unfold reprChar at hd
      obtain ⟨b, h1, h2⟩ := List.mem_flatMap.1 hd
      exact (byte_facts q (quote_mem hq) b (hb b h1).2 (hb b h1).1).2.2.2 d h2

theorem show_name {q : Char} (hq : Quote q) {n : Str} (hn : XName n) : n.flatMap (reprChar q) = n := by
  refine flatMap_id ?_
  intro c hc
  have h1 := name_ascii hn c hc
  have h2 : isNameChar c = true := by
    obtain ⟨d, r, rfl, h1, h2⟩ := hn
    rcases List.mem_cons.1 hc with rfl | hc
    · exact (nameChar_iff c).2 (Or.inl h1)
    · exact (nameChar_iff c).2 (h2 c hc)
  exact ascii_cases (P := fun c => isNameChar c = true → reprChar q c = [c]) (name_facts q (quote_mem hq)) c h1 h2

/-! ## Elements -/

/-- a text as it is shown -/
def showText (q : Char) (t : Option Str) : Option Str := t.map (·.flatMap (reprChar q))
/-- attributes as they are shown -/
def showAttrs (a : List (Str × Str)) : List (Str × Str) := a.map (fun p => (p.1, p.2.flatMap showAttr))

mutual
/-- the element that is read from bytes as they are shown -/
def showXml (q : Char) : Xml → Xml
  | .mk n a t cs tl => .mk n (showAttrs a) (showText q t) (showAll q cs) (showText q tl)
/-- the elements -/
def showAll (q : Char) : List Xml → List Xml
  | [] => []
  | x :: xs => showXml q x :: showAll q xs
end

theorem flatMap_show {q : Char} (hq : Quote q) (s : Str) : (s.flatMap escText).flatMap (reprChar q) = (s.flatMap (reprChar q)).flatMap escText := by
  induction s with
  | nil => rfl
  | cons c s ih => rw [List.flatMap_cons, List.flatMap_append, show_text hq, ih, List.flatMap_cons, List.flatMap_append]

theorem flatMap_showAttr (s : Str) : (s.flatMap escAttr).flatMap (reprChar '\'') = (s.flatMap showAttr).flatMap escAttr := by
  induction s with
  | nil => rfl
  | cons c s ih => rw [List.flatMap_cons, List.flatMap_append, show_attr, ih, List.flatMap_cons, List.flatMap_append]

theorem show_getD {q : Char} (t : Option Str) : (showText q t).getD [] = (t.getD []).flatMap (reprChar q) := by
  cases t <;> rfl

theorem flatMap_empty {q : Char} (hq : Quote q) (s : Str) : (s.flatMap (reprChar q)).isEmpty = s.isEmpty := by
  cases s with
  | nil => rfl
  | cons c s =>
    rw [List.flatMap_cons]
    cases e : reprChar q c with
    | nil => exact absurd e (reprChar_chars hq c).1
    | cons _ _ => rfl

theorem showAll_empty (q : Char) (cs : List Xml) : (showAll q cs).isEmpty = cs.isEmpty := by
  cases cs <;> rfl

theorem show_attrs {q : Char} (hq : Quote q) {a : List (Str × Str)} (ha : ∀ p ∈ a, XName p.1 ∧ ∀ c ∈ p.2, XChar c) (hb : q = '\'' ∨ '"' ∉ a.flatMap attrText) :
    (a.flatMap attrText).flatMap (reprChar q) = (showAttrs a).flatMap attrText := by
  rcases hb with rfl | hb
  · induction a with
    | nil => rfl
    | cons p a ih =>
      have e := show_name hq (ha p (by simp)).1
      rw [List.flatMap_cons, List.flatMap_append, ih (fun r hr => ha r (by simp [hr]))]
      show _ = attrText (p.1, p.2.flatMap showAttr) ++ (showAttrs a).flatMap attrText
      congr 1
      unfold attrText
      dsimp only
      rw [List.flatMap_cons, List.flatMap_append, List.flatMap_append, List.flatMap_append, e, flatMap_showAttr]
      have e1 : reprChar '\'' ' ' = [' '] := by decide
      have e2 : List.flatMap (reprChar '\'') c!"=\"" = c!"=\"" := by decide
      have e3 : List.flatMap (reprChar '\'') ['"'] = ['"'] := by decide
      rw [e1, e2, e3]
      rfl
  · cases a with
    | nil => rfl
    | cons p a => exact absurd (by simp [attrText]) hb

theorem show_lits {q : Char} (hq : Quote q) : [('<' : Char)].flatMap (reprChar q) = ['<'] ∧ [('>' : Char)].flatMap (reprChar q) = ['>'] ∧
    (c!" />").flatMap (reprChar q) = c!" />" ∧ (c!"</").flatMap (reprChar q) = c!"</" := by
  rcases hq with rfl | rfl <;> decide

mutual
theorem serialize_show {q : Char} (hq : Quote q) : ∀ {x : Xml}, ProperXml x → (q = '\'' ∨ '"' ∉ serialize x) → (serialize x).flatMap (reprChar q) = serialize (showXml q x)
  | _, @ProperXml.mk n a t tl cs hn ha hnd hx ht hcs htl, hb => by
    obtain ⟨l1, l2, l3, l4⟩ := show_lits hq
    have hb1 : q = '\'' ∨ '"' ∉ a.flatMap attrText := by
      rcases hb with hb | hb
      · exact Or.inl hb
      · refine Or.inr (fun h => hb ?_)
        rw [serialize]; simp only [List.mem_cons, List.mem_append]; exact Or.inr (Or.inr (Or.inl h))
    have ea := show_attrs hq ha hb1
    rw [showXml, serialize, serialize]
    rw [show_getD, show_getD, flatMap_empty hq, showAll_empty, ← ea, ← flatMap_show hq, ← flatMap_show hq]
    by_cases hc : (t.getD []).isEmpty = true ∧ cs.isEmpty = true
    · rw [if_pos hc, if_pos hc]
      rw [← List.singleton_append, List.flatMap_append, List.flatMap_append, List.flatMap_append, List.flatMap_append, l1, l3, show_name hq hn]
      rfl
    · have hb2 : q = '\'' ∨ '"' ∉ serializeAll cs := by
        rcases hb with hb | hb
        · exact Or.inl hb
        · refine Or.inr (fun h => hb ?_)
          rw [serialize, if_neg hc]; simp [h]
      have ec := serializeAll_show hq hcs hb2
      rw [if_neg hc, if_neg hc, ← ec]
      rw [← List.singleton_append, ← List.singleton_append (l := List.flatMap escText (t.getD []) ++ _), List.flatMap_append, List.flatMap_append, List.flatMap_append, List.flatMap_append,
        List.flatMap_append, List.flatMap_append, List.flatMap_append, List.flatMap_append, List.flatMap_append, l1, l2, l4, show_name hq hn]
      rfl
theorem serializeAll_show {q : Char} (hq : Quote q) : ∀ {cs : List Xml}, ProperXmls cs → (q = '\'' ∨ '"' ∉ serializeAll cs) →
    (serializeAll cs).flatMap (reprChar q) = serializeAll (showAll q cs)
  | _, .nil, _ => rfl
  | _, @ProperXmls.cons x xs hx hxs, hb => by
    rw [serializeAll, List.flatMap_append, showAll, serializeAll]
    have h1 : q = '\'' ∨ '"' ∉ serialize x := by
      rcases hb with hb | hb
      · exact Or.inl hb
      · exact Or.inr (fun h => hb (by rw [serializeAll]; simp [h]))
    have h2 : q = '\'' ∨ '"' ∉ serializeAll xs := by
      rcases hb with hb | hb
      · exact Or.inl hb
      · exact Or.inr (fun h => hb (by rw [serializeAll]; simp [h]))
    rw [serialize_show hq hx h1, serializeAll_show hq hxs h2]
end

end XmlText
end TTP
