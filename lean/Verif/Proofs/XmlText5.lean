import Verif.Proofs.XmlText4
import Verif.Proofs.Json3
/-!
# XML texts: what is written is read again
-/

namespace TTP.XmlText
open Py Spec

theorem encode_append (ascii : Bool) (s t : Str) : encode ascii (s ++ t) = encode ascii s ++ encode ascii t := List.flatMap_append

theorem encode_nil (ascii : Bool) : encode ascii [] = [] := rfl

theorem encode_cons (ascii : Bool) (c : Char) (s : Str) : encode ascii (c :: s) = encode ascii [c] ++ encode ascii s := encode_append ascii [c] s

theorem encode_ascii {ascii : Bool} {s : Str} (h : ∀ c ∈ s, c.toNat < 128) : encode ascii s = s := by
  induction s with
  | nil => rfl
  | cons c s ih =>
    have hc : ¬ (ascii = true ∧ 128 ≤ c.toNat) := by have := h c (by simp); omega
    rw [encode_cons, ih (fun d hd => h d (by simp [hd]))]
    simp [encode, hc]

theorem encode_one (ascii : Bool) (c : Char) : encode ascii [c] = [c] ∨ encode ascii [c] = c!"&#" ++ (natStr c.toNat ++ [';']) := by
  unfold encode
  by_cases h : ascii = true ∧ 128 ≤ c.toNat <;> simp [h]

theorem name_ascii {n : Str} (h : XName n) : ∀ c ∈ n, c.toNat < 128 := by
  obtain ⟨d, r, rfl, h1, h2⟩ := h
  have hs : ∀ c, XNameStart c → c.toNat < 128 := by
    intro c hc
    rcases hc with ⟨_, h⟩ | ⟨_, h⟩ | rfl
    · have : c.toNat ≤ 122 := h; omega
    · have : c.toNat ≤ 90 := h; omega
    · decide
  intro c hc
  rcases List.mem_cons.1 hc with rfl | hc
  · exact hs _ h1
  · rcases h2 c hc with h | h | rfl | rfl
    · exact hs _ h
    · have : c.toNat ≤ 57 := h.2; omega
    · decide
    · decide

theorem encode_name {ascii : Bool} {n : Str} (h : XName n) : encode ascii n = n := encode_ascii (name_ascii h)

theorem digits_natStr (n : Nat) : ∀ d ∈ natStr n, JDigit d := by
  intro d hd
  have := (List.all_eq_true.1 (natStr_digits n)) d hd
  unfold isDigit at this
  simp at this
  exact this

theorem natStr_ref {c : Char} (h : XChar c) : XRef (c!"&#" ++ (natStr c.toNat ++ [';'])) c := by
  refine XRef.decimal (natStr_ne_nil _) (digits_natStr _) ?_ h
  rw [← Json.natOfDigits_decimal, natStr_val]

/-! ## Texts -/

/-- the text does not go on with `>` or with `]>` -/
def Good (s : Str) : Prop := (∀ u, s ≠ '>' :: u) ∧ ∀ u, s ≠ ']' :: '>' :: u

theorem good_nil : Good [] := ⟨by simp, by simp⟩

theorem good_cons {c : Char} {s : Str} (h1 : c ≠ '>') (h2 : c ≠ ']') : Good (c :: s) :=
  ⟨by intro u e; cases e; exact h1 rfl, by intro u e; cases e; exact h2 rfl⟩

theorem good_ref {r s : Str} {c : Char} (h : XRef r c) : Good (r ++ s) := by
  obtain ⟨b, rfl, _⟩ := (xref_iff _ _).1 h
  exact good_cons (by decide) (by decide)

theorem encode_entity {ascii : Bool} {s : Str} (h : s ∈ [c!"&amp;", c!"&lt;", c!"&gt;", c!"&quot;", c!"&#13;", c!"&#10;", c!"&#09;"]) :
    encode ascii s = s := by
  apply encode_ascii
  revert s
  decide

theorem escText_content {ascii : Bool} {c : Char} (hc : XChar c) {s v : Str} {cs : List Xml} (h : XContent s v cs) (hg : Good s) :
    XContent (encode ascii (escText c) ++ s) (c :: v) cs ∧ Good (encode ascii (escText c) ++ s) := by
  have viaRef : ∀ r, XRef r c → XContent (r ++ s) (c :: v) cs ∧ Good (r ++ s) := fun r hr => ⟨.ref hr h, good_ref hr⟩
  unfold escText
  split
  · rename_i e; subst e
    rw [encode_entity (by simp)]
    exact viaRef _ (.named (n := c!"amp") (by decide))
  · rename_i h1
    split
    · rename_i e; subst e
      rw [encode_entity (by simp)]
      exact viaRef _ (.named (n := c!"lt") (by decide))
    · rename_i h2
      split
      · rename_i e; subst e
        rw [encode_entity (by simp)]
        exact viaRef _ (.named (n := c!"gt") (by decide))
      · rename_i h3
        rcases encode_one ascii c with e | e
        · rw [e, List.singleton_append]
          refine ⟨.char c h2 h1 ?_ h, ?_, ?_⟩
          · intro r e
            cases e
            exact hg.2 r rfl
          · intro u e; cases e; exact h3 rfl
          · intro u e; cases e; exact hg.1 u rfl
        · rw [e]
          exact viaRef _ (natStr_ref hc)

theorem text_content {ascii : Bool} {u : Str} (hu : ∀ c ∈ u, XChar c) {s v : Str} {cs : List Xml} (h : XContent s v cs) (hg : Good s) :
    XContent (encode ascii (u.flatMap escText) ++ s) (u ++ v) cs ∧ Good (encode ascii (u.flatMap escText) ++ s) := by
  induction u with
  | nil => exact ⟨h, hg⟩
  | cons c u ih =>
    obtain ⟨h1, h2⟩ := ih (fun d hd => hu d (by simp [hd]))
    rw [List.flatMap_cons, encode_append, List.append_assoc]
    exact escText_content (hu c (by simp)) h1 h2

/-! ## Attributes -/

theorem escAttr_value {ascii : Bool} {c : Char} (hc : XChar c) {t v : Str} (h : XValue '"' t v) : XValue '"' (encode ascii (escAttr c) ++ t) (c :: v) := by
  unfold escAttr
  split
  · rename_i e; subst e; rw [encode_entity (by simp)]; exact .ref (.named (n := c!"amp") (by decide)) h
  · rename_i h1
    split
    · rename_i e; subst e; rw [encode_entity (by simp)]; exact .ref (.named (n := c!"lt") (by decide)) h
    · rename_i h2
      split
      · rename_i e; subst e; rw [encode_entity (by simp)]; exact .ref (.named (n := c!"gt") (by decide)) h
      · split
        · rename_i e; subst e; rw [encode_entity (by simp)]; exact .ref (.named (n := c!"quot") (by decide)) h
        · rename_i h4
          split
          · rename_i e; subst e; rw [encode_entity (by simp)]
            exact .ref (.decimal (ds := c!"13") (by decide) (by unfold JDigit; decide) (by decide) hc) h
          · split
            · rename_i e; subst e; rw [encode_entity (by simp)]
              exact .ref (.decimal (ds := c!"10") (by decide) (by unfold JDigit; decide) (by decide) hc) h
            · rename_i h6
              split
              · rename_i e; subst e; rw [encode_entity (by simp)]
                exact .ref (.decimal (ds := c!"09") (by decide) (by unfold JDigit; decide) (by decide) hc) h
              · rename_i h7
                rcases encode_one ascii c with e | e
                · rw [e, List.singleton_append]
                  by_cases hs : c = ' '
                  · subst hs; exact .blank ' ' (by unfold XBlank; simp) h
                  · refine .plain c ?_ h4 h2 h1 h
                    intro hb
                    rcases (isWs_or c).1 ((isWs_iff c).2 hb) with h | h | h
                    · exact hs h
                    · exact h7 h
                    · exact h6 h
                · rw [e]
                  exact .ref (natStr_ref hc) h

theorem attr_value {ascii : Bool} {u : Str} (hu : ∀ c ∈ u, XChar c) : XValue '"' (encode ascii (u.flatMap escAttr)) u := by
  induction u with
  | nil => exact .nil
  | cons c u ih =>
    rw [List.flatMap_cons, encode_append]
    exact escAttr_value (hu c (by simp)) (ih (fun d hd => hu d (by simp [hd])))

theorem attrs_text {ascii : Bool} {a : List (Str × Str)} (ha : ∀ p ∈ a, XName p.1 ∧ ∀ c ∈ p.2, XChar c) : XAttrs (encode ascii (a.flatMap attrText)) a := by
  induction a with
  | nil => exact .nil
  | cons p a ih =>
    obtain ⟨n, v⟩ := p
    obtain ⟨hn, hv⟩ := ha (n, v) (by simp)
    have h1 := ih (fun q hq => ha q (by simp [hq]))
    have := XAttrs.cons (w := [' ']) (n := n) (a := []) (b := []) (q := '"') (by unfold XBlank; simp) (by simp) hn blank_nil blank_nil (Or.inl rfl)
      (attr_value (ascii := ascii) hv) h1
    have e : encode ascii (List.flatMap attrText ((n, v) :: a)) =
        [' '] ++ (n ++ ([] ++ '=' :: ([] ++ '"' :: (encode ascii (List.flatMap escAttr v) ++ '"' :: encode ascii (List.flatMap attrText a))))) := by
      rw [List.flatMap_cons, encode_append]
      unfold attrText
      rw [encode_cons, encode_append, encode_append, encode_append, encode_name hn]
      have e1 : encode ascii [' '] = [' '] := encode_ascii (by decide)
      have e2 : encode ascii c!"=\"" = c!"=\"" := encode_ascii (by decide)
      have e3 : encode ascii ['"'] = ['"'] := encode_ascii (by decide)
      rw [e1, e2, e3]
      simp
    rw [e]
    exact this

/-! ## Elements -/

theorem someText_getD {t : Option Str} (h : ProperText t) : someText (t.getD []) = t := by
  cases t with
  | none => rfl
  | some s =>
    unfold someText
    rw [if_neg]
    · rfl
    · intro e
      exact h.1 (by rw [show s = [] from e])

theorem properText_chars {t : Option Str} (h : ProperText t) : ∀ c ∈ t.getD [], XChar c := by
  cases t with
  | none => simp
  | some s => exact h.2 s rfl

mutual
theorem serialize_element {ascii : Bool} : ∀ {x : Xml}, ProperXml x → ∃ t, XElement t x.tag x.attrib (x.text.getD []) x.children ∧
    encode ascii (serialize x) = t ++ encode ascii ((x.tail.getD []).flatMap escText) ∧ Good t
  | _, @ProperXml.mk n a t tl cs hn ha hnd hx ht hcs htl => by
    have htag := XTag.mk hn (attrs_text (ascii := ascii) ha) hnd hx (w := []) blank_nil
    have htag2 := XTag.mk hn (attrs_text (ascii := ascii) ha) hnd hx (w := [' ']) (by unfold XBlank; simp)
    have e0 : encode ascii ['<'] = ['<'] := encode_ascii (by decide)
    simp only [Xml.tag, Xml.attrib, Xml.text, Xml.children, Xml.tail]
    by_cases hc : (t.getD []).isEmpty ∧ cs.isEmpty
    · have h1 : t.getD [] = [] := by simpa using hc.1
      have h2 : cs = [] := by simpa using hc.2
      refine ⟨'<' :: (n ++ (encode ascii (a.flatMap attrText) ++ [' ']) ++ c!"/>"), ?_, ?_, good_cons (by decide) (by decide)⟩
      · rw [h1, h2]
        exact .empty htag2
      · rw [serialize, if_pos hc, encode_cons, encode_append, encode_append, encode_append, encode_name hn, e0,
          encode_ascii (s := c!" />") (by decide)]
        simp
    · obtain ⟨h1, h2⟩ := serialize_all (ascii := ascii) hcs
      obtain ⟨h3, _⟩ := text_content (ascii := ascii) (properText_chars ht) h1 h2
      rw [List.append_nil] at h3
      refine ⟨_, .full htag h3 (w := []) blank_nil, ?_, good_cons (by decide) (by decide)⟩
      rw [serialize, if_neg hc, encode_cons, encode_append, encode_append, encode_append, encode_cons ascii '>', encode_append, encode_append,
        encode_append, encode_append, encode_name hn, e0, encode_ascii (s := c!"</") (by decide), encode_ascii (s := ['>']) (by decide)]
      simp
theorem serialize_all {ascii : Bool} : ∀ {cs : List Xml}, ProperXmls cs → XContent (encode ascii (serializeAll cs)) [] cs ∧ Good (encode ascii (serializeAll cs))
  | _, .nil => ⟨.nil, good_nil⟩
  | _, @ProperXmls.cons x xs hx hxs => by
    obtain ⟨h1, h2⟩ := serialize_all (ascii := ascii) hxs
    obtain ⟨t, h3, h4, h5⟩ := serialize_element (ascii := ascii) hx
    cases hx with
    | @mk n a t' tl cs hn ha hnd hxm ht hcs htl =>
      simp only [Xml.tag, Xml.attrib, Xml.text, Xml.children, Xml.tail] at h3 h4
      obtain ⟨h6, _⟩ := text_content (ascii := ascii) (properText_chars htl) h1 h2
      have := XContent.element h3 h6
      rw [List.append_nil, someText_getD ht, someText_getD htl] at this
      rw [serializeAll, encode_append, h4, List.append_assoc]
      refine ⟨this, ?_⟩
      obtain ⟨q, rfl⟩ : ∃ q, t = '<' :: q := by
        generalize (t'.getD []) = v at h3
        cases h3 <;> exact ⟨_, rfl⟩
      exact good_cons (by decide) (by decide)
end

/-! ## Characters of what is written -/

/-- a character that XML allows and that is not a carriage return -/
def Fine (c : Char) : Prop := XChar c ∧ c ≠ '\r'

theorem fine_ascii {c : Char} (h1 : 32 ≤ c.toNat) (h2 : c.toNat < 128) : Fine c := by
  refine ⟨Or.inr (Or.inr (Or.inr ⟨h1, by omega, by omega⟩)), ?_⟩
  rintro rfl
  revert h1; decide

theorem fine_encode {ascii : Bool} {s : Str} (h : ∀ c ∈ s, Fine c) : ∀ c ∈ encode ascii s, Fine c := by
  intro c hc
  unfold encode at hc
  obtain ⟨d, hd, hc⟩ := List.mem_flatMap.1 hc
  split at hc
  · rcases List.mem_append.1 hc with hc | hc
    · have : c = '&' ∨ c = '#' := by simpa using hc
      rcases this with rfl | rfl <;> exact fine_ascii (by decide) (by decide)
    · rcases List.mem_append.1 hc with hc | hc
      · have := digits_natStr _ c hc
        have h1 : 48 ≤ c.toNat := this.1
        have h2 : c.toNat ≤ 57 := this.2
        exact fine_ascii (by omega) (by omega)
      · simp at hc; subst hc; exact fine_ascii (by decide) (by decide)
  · simp at hc; subst hc; exact h c hd

theorem fine_list {s : Str} (h : ∀ c ∈ s, 32 ≤ c.toNat ∧ c.toNat < 128) : ∀ c ∈ s, Fine c := fun c hc => fine_ascii (h c hc).1 (h c hc).2

theorem fine_name {n : Str} (h : XName n) : ∀ c ∈ n, Fine c := by
  intro c hc
  refine fine_ascii ?_ (name_ascii h c hc)
  obtain ⟨d, r, rfl, h1, h2⟩ := h
  have hs : ∀ c, XNameStart c → 32 ≤ c.toNat := by
    intro c hc
    rcases hc with ⟨h, _⟩ | ⟨h, _⟩ | rfl
    · have : 97 ≤ c.toNat := h; omega
    · have : 65 ≤ c.toNat := h; omega
    · decide
  rcases List.mem_cons.1 hc with rfl | hc
  · exact hs _ h1
  · rcases h2 c hc with h | h | rfl | rfl
    · exact hs _ h
    · have : 48 ≤ c.toNat := h.1; omega
    · decide
    · decide

theorem fine_escText {u : Str} (h : ∀ c ∈ u, Fine c) : ∀ c ∈ u.flatMap escText, Fine c := by
  intro c hc
  obtain ⟨d, hd, hc⟩ := List.mem_flatMap.1 hc
  unfold escText at hc
  split at hc
  · exact fine_list (by decide) c hc
  · split at hc
    · exact fine_list (by decide) c hc
    · split at hc
      · exact fine_list (by decide) c hc
      · simp at hc; subst hc; exact h c hd

theorem fine_escAttr {u : Str} (h : ∀ c ∈ u, XChar c) : ∀ c ∈ u.flatMap escAttr, Fine c := by
  intro c hc
  obtain ⟨d, hd, hc⟩ := List.mem_flatMap.1 hc
  unfold escAttr at hc
  repeat' split at hc
  all_goals first
    | exact fine_list (by decide) c hc
    | (simp at hc; subst hc; exact ⟨h c hd, by assumption⟩)

theorem fine_attrText {a : List (Str × Str)} (ha : ∀ p ∈ a, XName p.1 ∧ ∀ c ∈ p.2, XChar c) : ∀ c ∈ a.flatMap attrText, Fine c := by
  intro c hc
  obtain ⟨⟨n, v⟩, hd, hc⟩ := List.mem_flatMap.1 hc
  obtain ⟨hn, hv⟩ := ha _ hd
  unfold attrText at hc
  simp only [List.mem_cons, List.mem_append, List.not_mem_nil, or_false] at hc
  rcases hc with rfl | hc | (rfl | rfl) | hc | rfl
  · exact fine_ascii (by decide) (by decide)
  · exact fine_name hn c hc
  · exact fine_ascii (by decide) (by decide)
  · exact fine_ascii (by decide) (by decide)
  · exact fine_escAttr hv c hc
  · exact fine_ascii (by decide) (by decide)

theorem fine_text {t : Option Str} (h : ProperText t) (h2 : NoReturnText t) : ∀ c ∈ t.getD [], Fine c := by
  intro c hc
  cases t with
  | none => cases hc
  | some s => exact ⟨h.2 s rfl c hc, by rintro rfl; exact h2 s rfl hc⟩

mutual
theorem fine_serialize : ∀ {x : Xml}, ProperXml x → NoReturns x → ∀ c ∈ serialize x, Fine c
  | _, @ProperXml.mk n a t tl cs hn ha hnd hx ht hcs htl, hr, c, hc => by
    cases hr with
    | mk r1 r2 r3 =>
      rw [serialize] at hc
      simp only [List.mem_cons, List.mem_append] at hc
      rcases hc with rfl | hc | hc | hc | hc
      · exact fine_ascii (by decide) (by decide)
      · exact fine_name hn c hc
      · exact fine_attrText ha c hc
      · split at hc
        · exact fine_list (by decide) c hc
        · simp only [List.mem_cons, List.mem_append, List.not_mem_nil, or_false] at hc
          rcases hc with rfl | hc | hc | (rfl | rfl) | hc | rfl
          · exact fine_ascii (by decide) (by decide)
          · exact fine_escText (fine_text ht r1) c hc
          · exact fine_serializeAll hcs r2 c hc
          · exact fine_ascii (by decide) (by decide)
          · exact fine_ascii (by decide) (by decide)
          · exact fine_name hn c hc
          · exact fine_ascii (by decide) (by decide)
      · exact fine_escText (fine_text htl r3) c hc
theorem fine_serializeAll : ∀ {cs : List Xml}, ProperXmls cs → NoReturnsAll cs → ∀ c ∈ serializeAll cs, Fine c
  | _, .nil, _, c, hc => by cases hc
  | _, .cons hx hxs, hr, c, hc => by
    cases hr with
    | cons r1 r2 =>
      rw [serializeAll] at hc
      rcases List.mem_append.1 hc with hc | hc
      · exact fine_serialize hx r1 c hc
      · exact fine_serializeAll hxs r2 c hc
end

theorem unix_self {s : Str} (h : '\r' ∉ s) : UnixLines s s := by
  induction s with
  | nil => exact .nil
  | cons c s ih => exact .other c (by rintro rfl; simp at h) (ih (by intro e; exact h (by simp [e])))

/-- what is written is read again; there must be no text after the element -/
theorem parse_tostring (ascii : Bool) {x : Xml} (hp : ProperXml x) (hr : NoReturns x) (htl : x.tail = none) : parse (tostring ascii x) = some x := by
  rw [parse_iff]
  obtain ⟨t, h1, h2, _⟩ := serialize_element (ascii := ascii) hp
  have hf := fine_encode (ascii := ascii) (fine_serialize hp hr)
  rw [htl] at h2
  unfold tostring
  rw [h2] at hf ⊢
  have e : t ++ encode ascii (List.flatMap escText (Option.getD none [])) = t := by
    show t ++ [] = t
    simp
  rw [e] at hf ⊢
  cases hp with
  | @mk n a t' tl cs hn ha hnd hx ht hcs htl' =>
    simp only [Xml.tag, Xml.attrib, Xml.text, Xml.children, Xml.tail] at h1 htl
    subst htl
    have := XDocument.mk (bom := []) (s := t) (a := []) (t := t) (b := []) (fun c hc => (hf c hc).1) (Or.inl rfl) (by
      rw [List.nil_append, List.append_nil]
      exact unix_self (fun h => (hf _ h).2 rfl)) .nil h1 .nil
    rw [someText_getD ht] at this
    exact this

end TTP.XmlText
