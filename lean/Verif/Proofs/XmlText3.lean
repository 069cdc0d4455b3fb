import Verif.Proofs.XmlText2
/-!
# XML texts: the parts of a text, and the reader accepts exactly the documents of the grammar
-/

namespace TTP.XmlText
open Py Spec

/-- the text of a part -/
inductive TokOf : Str → Tok → Prop
  | start {t n : Str} {a : List (Str × Str)} : XTag t n a → TokOf ('<' :: (t ++ ['>'])) (.start n a)
  | empty {t n : Str} {a : List (Str × Str)} : XTag t n a → TokOf ('<' :: (t ++ c!"/>")) (.empty n a)
  | close {n w : Str} : XName n → XBlank w → TokOf (c!"</" ++ (n ++ (w ++ ['>']))) (.close n)
  | char {c : Char} : c ≠ '<' → c ≠ '&' → TokOf [c] (.char c)
  | ref {r : Str} {c : Char} : XRef r c → TokOf r (.data [c])
  | cdata {t : Str} : Lacks c!"]]>" t → TokOf (c!"<![CDATA[" ++ (t ++ c!"]]>")) (.data t)
  | note {t : Str} : XNote t → TokOf t .skip

/-- `]]>` is not text -/
def Follow (t : Tok) (r : Str) : Prop := t = .char ']' → ∀ u, r ≠ ']' :: '>' :: u

/-! ## Tags -/

theorem tag_complete {t n : Str} {a : List (Str × Str)} (h : XTag t n a) (c : Char) (hc : c = '>' ∨ c = '/') (r : Str) :
    openTag (t ++ c :: r) = tagEnd n a (c :: r) := by
  cases h with
  | @mk n s w as hn hs hd hx hw =>
    have e : n ++ (s ++ w) ++ c :: r = n ++ (s ++ (w ++ c :: r)) := by simp
    have hc1 : isNameChar c = false := by rcases hc with rfl | rfl <;> decide
    have hf : NotFirst isNameChar (s ++ (w ++ c :: r)) := by
      rcases xattrs_cases hs with ⟨rfl, _⟩ | ⟨w', u, s', p, as', rfl, _, hw', hne, _, _⟩
      · rw [List.nil_append]; exact blank_notName hw (notFirst_cons hc1)
      · obtain ⟨d, w'', rfl⟩ := List.exists_cons_of_ne_nil hne
        exact notFirst_cons (ws_notName ((isWs_iff d).2 (blank_cons hw').1))
    unfold openTag
    rw [e, name_complete hn hf]
    dsimp only
    rw [attrs_complete hs w r hw c hc _ (by omega)]
    dsimp only
    rw [if_pos ⟨hd, hx⟩]

theorem tag_sound {s r : Str} {t : Tok} (h : openTag s = some (t, r)) :
    ∃ u n a, XTag u n a ∧ ((s = u ++ '>' :: r ∧ t = .start n a) ∨ (s = u ++ '/' :: '>' :: r ∧ t = .empty n a)) := by
  unfold openTag at h
  cases hn : name s with
  | none => rw [hn] at h; cases h
  | some x =>
    obtain ⟨n, r0⟩ := x
    rw [hn] at h
    dsimp only at h
    obtain ⟨rfl, hx, _⟩ := name_sound hn
    split at h
    · cases h
    · rename_i a r1 e1
      obtain ⟨u, w, rfl, hu, hw, c, r2, rfl, hc⟩ := attrs_sound e1
      split at h
      · rename_i hnd
        have htag := XTag.mk hx hu hnd.1 hnd.2 hw
        refine ⟨n ++ (u ++ w), n, a, htag, ?_⟩
        rw [tagEnd] at h
        split at h
        · rename_i hc'
          subst hc'
          simp only [Option.some.injEq, Prod.mk.injEq] at h
          obtain ⟨rfl, rfl⟩ := h
          exact Or.inl ⟨by simp, rfl⟩
        · rename_i hc'
          rw [Option.map_eq_some_iff] at h
          obtain ⟨r3, h1, h2⟩ := h
          rw [after_iff] at h1
          simp only [Prod.mk.injEq] at h2
          obtain ⟨rfl, rfl⟩ := h2
          have : c = '/' := by rcases hc with hc | hc; exact absurd hc hc'; exact hc
          subst this
          exact Or.inr ⟨by rw [h1]; simp, rfl⟩
      · cases h

theorem close_complete {n w : Str} (hn : XName n) (hw : XBlank w) (r : Str) : closeTag (n ++ (w ++ '>' :: r)) = some (.close n, r) := by
  unfold closeTag
  rw [name_complete hn (blank_notName hw (notFirst_cons (by decide)))]
  dsimp only
  rw [skipWs_blank hw (notFirst_cons (by decide)), (after_iff _ _ _).2 rfl]
  rfl

theorem close_sound {s r : Str} {t : Tok} (h : closeTag s = some (t, r)) : ∃ n w, s = n ++ (w ++ '>' :: r) ∧ t = .close n ∧ XName n ∧ XBlank w := by
  unfold closeTag at h
  cases hn : name s with
  | none => rw [hn] at h; cases h
  | some x =>
    obtain ⟨n, r0⟩ := x
    rw [hn] at h
    dsimp only at h
    obtain ⟨rfl, hx, _⟩ := name_sound hn
    obtain ⟨w, hw1, hw2, _⟩ := skipWs_split r0
    rw [Option.map_eq_some_iff] at h
    obtain ⟨r1, h1, h2⟩ := h
    rw [after_iff] at h1
    simp only [Prod.mk.injEq] at h2
    obtain ⟨rfl, rfl⟩ := h2
    exact ⟨n, w, by rw [← h1, ← hw1], rfl, hx, hw2⟩

/-! ## Comments and processing instructions -/

theorem comment_complete {t : Str} (h : Lacks c!"--" (t ++ ['-'])) (r : Str) : comment (t ++ (c!"-->" ++ r)) = some (.skip, r) := by
  have e : t ++ (c!"-->" ++ r) = t ++ (c!"--" ++ ('>' :: r)) := rfl
  unfold comment
  rw [e, upTo_complete (by simp) ((first_comment t).2 h), Option.bind_some]
  dsimp only
  rw [(after_iff _ _ _).2 rfl]
  rfl

theorem comment_sound {s r : Str} {t : Tok} (h : comment s = some (t, r)) : ∃ u, s = u ++ (c!"-->" ++ r) ∧ t = .skip ∧ Lacks c!"--" (u ++ ['-']) := by
  unfold comment at h
  rw [Option.bind_eq_some_iff] at h
  obtain ⟨⟨u, r1⟩, h1, h2⟩ := h
  dsimp only at h2
  rw [Option.map_eq_some_iff] at h2
  obtain ⟨r2, h3, h4⟩ := h2
  rw [after_iff] at h3
  simp only [Prod.mk.injEq] at h4
  obtain ⟨rfl, rfl⟩ := h4
  obtain ⟨h5, h6⟩ := upTo_sound (by simp) h1
  exact ⟨u, by rw [h5, h3]; rfl, rfl, (first_comment u).1 h6⟩

/-- what can stand between the brackets of a processing instruction -/
inductive Instr : Str → Prop
  | bare {n : Str} : XName n → lower n ≠ c!"xml" → Instr (n ++ c!"?>")
  | text {n t : Str} {c : Char} : XName n → lower n ≠ c!"xml" → XBlank [c] → Lacks c!"?>" t → Instr (n ++ (c :: (t ++ c!"?>")))

theorem xnote_iff (t : Str) : XNote t ↔ (∃ u, t = c!"<!--" ++ (u ++ c!"-->") ∧ Lacks c!"--" (u ++ ['-'])) ∨ ∃ u, t = c!"<?" ++ u ∧ Instr u := by
  constructor
  · intro h
    cases h with
    | comment h => exact Or.inl ⟨_, rfl, h⟩
    | instruction h1 h2 => exact Or.inr ⟨_, rfl, .bare h1 h2⟩
    | instructionText h1 h2 h3 h4 => exact Or.inr ⟨_, rfl, .text h1 h2 h3 h4⟩
  · rintro (⟨u, rfl, h⟩ | ⟨u, rfl, h⟩)
    · exact .comment h
    · cases h with
      | bare h1 h2 => exact .instruction h1 h2
      | text h1 h2 h3 h4 => exact .instructionText h1 h2 h3 h4

theorem lacks_cons {c : Char} {t : Str} (hc : c ≠ '?') (h : Lacks c!"?>" t) : Lacks c!"?>" (c :: t) := by
  intro a b e
  cases a with
  | nil => simp at e; exact hc e.1
  | cons d a =>
    simp only [List.cons_append, List.cons.injEq] at e
    exact h a b e.2

theorem instruction_complete {t : Str} (h : Instr t) (r : Str) : instruction (t ++ r) = some (.skip, r) := by
  cases h with
  | @bare n hn hx =>
    unfold instruction
    rw [List.append_assoc, name_complete (r := c!"?>" ++ r) hn (notFirst_cons (by decide))]
    dsimp only
    rw [if_neg hx, if_pos ((startsWith_iff _ _).2 ⟨r, rfl⟩)]
    rfl
  | @text n t c hn hx hc hl =>
    have hw := (isWs_iff c).2 hc
    have hq : c ≠ '?' := by rintro rfl; revert hw; decide
    unfold instruction
    have e : n ++ (c :: (t ++ c!"?>")) ++ r = n ++ (c :: (t ++ (c!"?>" ++ r))) := by simp
    rw [e, name_complete hn (notFirst_cons (ws_notName hw))]
    dsimp only
    have hne : ¬ skipWs (c :: (t ++ (c!"?>" ++ r))) = c :: (t ++ (c!"?>" ++ r)) := skipWs_ne (w := [c]) (s := t ++ (c!"?>" ++ r)) hc (by simp)
    rw [if_neg hx, if_neg (by
      rw [startsWith_iff]
      rintro ⟨u, hu⟩
      simp at hu
      exact hq hu.1), if_neg hne]
    have e2 : c :: (t ++ (c!"?>" ++ r)) = (c :: t) ++ (c!"?>" ++ r) := rfl
    rw [e2, upTo_complete (by simp) ((first_pi _).2 (lacks_cons hq hl))]
    rfl

theorem instruction_sound {s r : Str} {t : Tok} (h : instruction s = some (t, r)) : ∃ u, s = u ++ r ∧ t = .skip ∧ Instr u := by
  unfold instruction at h
  cases hn : name s with
  | none => rw [hn] at h; cases h
  | some x =>
    obtain ⟨n, r0⟩ := x
    rw [hn] at h
    dsimp only at h
    obtain ⟨rfl, hx, _⟩ := name_sound hn
    split at h
    · cases h
    · rename_i hne
      split at h
      · rename_i hp
        obtain ⟨r1, rfl⟩ := (startsWith_iff _ _).1 hp
        simp only [Option.some.injEq, Prod.mk.injEq] at h
        obtain ⟨rfl, rfl⟩ := h
        exact ⟨n ++ c!"?>", by simp, rfl, .bare hx hne⟩
      · split at h
        · cases h
        · rename_i hw
          rw [Option.map_eq_some_iff] at h
          obtain ⟨⟨b, r1⟩, h1, h2⟩ := h
          simp only [Prod.mk.injEq] at h2
          obtain ⟨rfl, rfl⟩ := h2
          obtain ⟨rfl, h4⟩ := upTo_sound (by simp) h1
          have hb : ∃ c b', b = c :: b' ∧ isWs c = true := by
            cases b with
            | nil => exact absurd (skipWs_self (notFirst_cons (by decide))) hw
            | cons c b' =>
              refine ⟨c, b', rfl, ?_⟩
              cases hc : isWs c with
              | true => rfl
              | false => exact absurd (skipWs_self (notFirst_cons hc)) hw
          obtain ⟨c, b', rfl, hc⟩ := hb
          refine ⟨n ++ (c :: (b' ++ c!"?>")), by simp, rfl, .text hx hne ((isWs_iff c).1 hc) ?_⟩
          have := (first_pi _).1 h4
          intro a u e
          exact this (c :: a) u (by simp [e])

/-! ## Parts -/

theorem startsWith_head {p : Str} {c d : Char} {s : Str} (h : c ≠ d) : startsWith (c :: s) (d :: p) = false := by
  apply startsWith_false
  intro r e
  simp at e
  exact h e.1

theorem token_tag {t n : Str} {a : List (Str × Str)} (h : XTag t n a) (r : Str) : token ('<' :: (t ++ r)) = openTag (t ++ r) := by
  cases h with
  | @mk n s w as hn hs hd hx hw =>
    obtain ⟨c, n', rfl, hc⟩ := name_head hn
    have h1 : c ≠ '/' := (start_ne hc).2.1
    have h2 : c ≠ '!' := by rintro rfl; revert hc; decide
    have h3 : c ≠ '?' := by rintro rfl; revert hc; decide
    rw [token, if_pos rfl]
    simp only [List.cons_append]
    rw [startsWith_head h1, startsWith_head h2, startsWith_head h2, startsWith_head h3]
    simp only [Bool.false_eq_true, if_false]

theorem token_complete {p : Str} {t : Tok} (h : TokOf p t) (r : Str) (hf : Follow t r) : token (p ++ r) = some (t, r) := by
  cases h with
  | @start t n a ht =>
    have e : '<' :: (t ++ ['>']) ++ r = '<' :: (t ++ ('>' :: r)) := by simp
    rw [e, token_tag ht, tag_complete ht '>' (Or.inl rfl), tagEnd, if_pos rfl]
  | @empty t n a ht =>
    have e : '<' :: (t ++ c!"/>") ++ r = '<' :: (t ++ ('/' :: '>' :: r)) := by simp
    rw [e, token_tag ht, tag_complete ht '/' (Or.inr rfl), tagEnd, if_neg (by decide), (after_iff _ _ _).2 rfl]
    rfl
  | @close n w hn hw =>
    have e : c!"</" ++ (n ++ (w ++ ['>'])) ++ r = '<' :: '/' :: (n ++ (w ++ '>' :: r)) := by simp
    rw [e, token, if_pos rfl, if_pos ((startsWith_iff ('/' :: (n ++ (w ++ '>' :: r))) c!"/").2 ⟨_, rfl⟩)]
    exact close_complete hn hw r
  | @char c h1 h2 =>
    rw [List.singleton_append, token, if_neg h1, if_neg h2]
    rw [if_neg]
    rintro ⟨rfl, h3⟩
    obtain ⟨u, hu⟩ := (startsWith_iff _ _).1 h3
    exact hf rfl u hu
  | @ref q c hr =>
    obtain ⟨t, rfl, h1⟩ := reference_complete (r := r) hr
    rw [List.cons_append, token, if_neg (by decide), if_pos rfl, h1]
    rfl
  | @cdata t hl =>
    have e : c!"<![CDATA[" ++ (t ++ c!"]]>") ++ r = '<' :: (c!"![CDATA[" ++ (t ++ (c!"]]>" ++ r))) := by simp
    rw [e, token, if_pos rfl]
    have e1 : startsWith (c!"![CDATA[" ++ (t ++ (c!"]]>" ++ r))) c!"/" = false := startsWith_head (by decide)
    have e2 : startsWith (c!"![CDATA[" ++ (t ++ (c!"]]>" ++ r))) c!"!--" = false := by
      apply startsWith_false; intro u e; simp at e
    have e3 : startsWith (c!"![CDATA[" ++ (t ++ (c!"]]>" ++ r))) c!"![CDATA[" = true := (startsWith_iff _ _).2 ⟨_, rfl⟩
    rw [e1, e2, e3]
    simp only [Bool.false_eq_true, if_false, if_true]
    have e4 : List.drop 8 (c!"![CDATA[" ++ (t ++ (c!"]]>" ++ r))) = t ++ (c!"]]>" ++ r) := rfl
    rw [e4, upTo_complete (by simp) ((first_cdata t).2 hl)]
    rfl
  | note hn =>
    rcases (xnote_iff _).1 hn with ⟨u, rfl, h1⟩ | ⟨u, rfl, h1⟩
    · have e : c!"<!--" ++ (u ++ c!"-->") ++ r = '<' :: (c!"!--" ++ (u ++ (c!"-->" ++ r))) := by simp
      have e1 : startsWith (c!"!--" ++ (u ++ (c!"-->" ++ r))) c!"/" = false := startsWith_head (by decide)
      have e2 : startsWith (c!"!--" ++ (u ++ (c!"-->" ++ r))) c!"!--" = true := (startsWith_iff _ _).2 ⟨_, rfl⟩
      rw [e, token, if_pos rfl, e1, e2]
      simp only [Bool.false_eq_true, if_false, if_true]
      exact comment_complete h1 r
    · have e : c!"<?" ++ u ++ r = '<' :: ('?' :: (u ++ r)) := by simp
      have e1 : startsWith ('?' :: (u ++ r)) c!"/" = false := startsWith_head (by decide)
      have e2 : startsWith ('?' :: (u ++ r)) c!"!--" = false := startsWith_head (by decide)
      have e3 : startsWith ('?' :: (u ++ r)) c!"![CDATA[" = false := startsWith_head (by decide)
      have e4 : startsWith ('?' :: (u ++ r)) c!"?" = true := (startsWith_iff _ _).2 ⟨_, rfl⟩
      rw [e, token, if_pos rfl, e1, e2, e3, e4]
      simp only [Bool.false_eq_true, if_false, if_true]
      exact instruction_complete h1 r

theorem token_sound {s r : Str} {t : Tok} (h : token s = some (t, r)) : ∃ p, s = p ++ r ∧ TokOf p t ∧ Follow t r := by
  cases s with
  | nil => cases h
  | cons c s =>
    rw [token] at h
    split at h
    · rename_i hc
      subst hc
      split at h
      · rename_i h1
        obtain ⟨u, rfl⟩ := (startsWith_iff _ _).1 h1
        obtain ⟨n, w, h2, rfl, h3, h4⟩ := close_sound h
        refine ⟨_, ?_, .close h3 h4, by intro e; cases e⟩
        have : u = n ++ (w ++ '>' :: r) := h2
        rw [this]; simp
      · split at h
        · rename_i h1
          obtain ⟨u, rfl⟩ := (startsWith_iff _ _).1 h1
          obtain ⟨v, h2, rfl, h3⟩ := comment_sound h
          refine ⟨_, ?_, .note (.comment h3), by intro e; cases e⟩
          have : u = v ++ (c!"-->" ++ r) := h2
          rw [this]; simp
        · split at h
          · rename_i h1
            obtain ⟨u, rfl⟩ := (startsWith_iff _ _).1 h1
            rw [Option.map_eq_some_iff] at h
            obtain ⟨⟨b, r1⟩, h2, h3⟩ := h
            simp only [Prod.mk.injEq] at h3
            obtain ⟨rfl, rfl⟩ := h3
            obtain ⟨h4, h5⟩ := upTo_sound (by simp) h2
            refine ⟨_, ?_, .cdata ((first_cdata b).1 h5), by intro e; cases e⟩
            have : u = b ++ (c!"]]>" ++ r1) := h4
            rw [this]; simp
          · split at h
            · rename_i h1
              obtain ⟨u, rfl⟩ := (startsWith_iff _ _).1 h1
              obtain ⟨v, h2, rfl, h3⟩ := instruction_sound h
              refine ⟨c!"<?" ++ v, ?_, .note ((xnote_iff _).2 (Or.inr ⟨v, rfl, h3⟩)), by intro e; cases e⟩
              have : u = v ++ r := h2
              rw [this]; simp
            · obtain ⟨u, n, a, h1, ⟨rfl, rfl⟩ | ⟨rfl, rfl⟩⟩ := tag_sound h
              · exact ⟨_, by simp, .start h1, by intro e; cases e⟩
              · exact ⟨'<' :: (u ++ c!"/>"), by simp, .empty h1, by intro e; cases e⟩
    · rename_i hc
      split at h
      · rename_i hc2
        subst hc2
        rw [Option.map_eq_some_iff] at h
        obtain ⟨⟨d, r1⟩, h1, h2⟩ := h
        simp only [Prod.mk.injEq] at h2
        obtain ⟨rfl, rfl⟩ := h2
        obtain ⟨b, h3, h4⟩ := reference_sound h1
        exact ⟨b, h3, .ref h4, by intro e; cases e⟩
      · rename_i hc2
        split at h
        · cases h
        · rename_i hb
          simp only [Option.some.injEq, Prod.mk.injEq] at h
          obtain ⟨rfl, rfl⟩ := h
          refine ⟨[c], rfl, .char hc hc2, ?_⟩
          intro e u hu
          cases e
          exact hb ⟨rfl, (startsWith_iff _ _).2 ⟨u, hu⟩⟩

theorem tokOf_ne {p : Str} {t : Tok} (h : TokOf p t) : p ≠ [] := by
  cases h with
  | start _ => simp
  | empty _ => simp
  | close _ _ => simp
  | char _ _ => simp
  | ref h => obtain ⟨b, rfl, _⟩ := (xref_iff _ _).1 h; simp
  | cdata _ => simp
  | note h => rcases (xnote_iff _).1 h with ⟨u, rfl, _⟩ | ⟨u, rfl, _⟩ <;> simp

theorem token_shrinks (s : Str) (t : Tok) (r : Str) (h : token s = some (t, r)) : r.length < s.length := by
  obtain ⟨p, rfl, h1, _⟩ := token_sound h
  have := List.length_pos_iff.2 (tokOf_ne h1)
  simp; omega

/-- the parts of a text -/
inductive Toks : Str → List Tok → Prop
  | nil : Toks [] []
  | cons {p r : Str} {t : Tok} {ts : List Tok} : TokOf p t → Follow t r → Toks r ts → Toks (p ++ r) (t :: ts)

theorem tokens_iff (s : Str) (ts : List Tok) : tokens s = some ts ↔ Toks s ts := by
  unfold tokens
  rw [many_iff token_shrinks]
  constructor
  · intro h
    induction h with
    | nil => exact .nil
    | cons h1 _ ih =>
      obtain ⟨p, rfl, h2, h3⟩ := token_sound h1
      exact .cons h2 h3 ih
  · intro h
    induction h with
    | nil => exact .nil
    | cons h1 h2 _ ih => exact .cons (token_complete h1 _ h2) ih

end TTP.XmlText
