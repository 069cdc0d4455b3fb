import Verif.Model.LineText
import Verif.Proofs.RegexText
import Verif.Proofs.Line3
/-!
# Lemmas about the text of the regular expression of a line
-/

namespace TTP
open Py Py.Re Py.ReText

/-! ## Literal text -/

/-- literal text as it stands in the regular expression -/
def litText (exact exactSp : Bool) : Kind → Str → Str
  | _, [] => []
  | last, c :: cs =>
    if !exactSp && isBlank c then
      if last = .blank then litText exact exactSp .blank cs else blanksText ++ litText exact exactSp .blank cs
    else if !exact && isDigit c then
      if last = .digit then litText exact exactSp .digit cs else c!"\\d+" ++ litText exact exactSp .digit cs
    else escapeChar c ++ litText exact exactSp .other cs

theorem blank_special (c : Char) (h : isBlank c = true) : c ∈ special := by
  simp only [isBlank, Bool.or_eq_true, beq_iff_eq] at h
  rcases h with rfl | rfl <;> decide

theorem digit_not_special (c : Char) (h : isDigit c = true) : c ∉ special := by
  intro hs
  have : ∀ x ∈ special, isDigit x = false := by decide
  rw [this c hs] at h; cases h

theorem escapeText_cons (c : Char) (t : Str) : escapeText (c :: t) = escapeChar c ++ escapeText t := by simp [escapeText]

theorem subBlanks_esc (b : Bool) (c : Char) (t : Str) : subBlanks b false (escapeText (c :: t)) =
    if isBlank c then (if b then subBlanks true false (escapeText t) else blanksText ++ subBlanks true false (escapeText t))
    else escapeChar c ++ subBlanks false false (escapeText t) := by
  rw [escapeText_cons]
  unfold escapeChar
  by_cases hs : c ∈ special
  · rw [if_pos hs]
    simp only [List.cons_append, List.nil_append, subBlanks]
    by_cases hb : isBlank c = true
    · simp [hb]
    · simp only [if_true, hb]
      by_cases hc : c = '\\'
      · subst hc
        simp only [if_true, Bool.false_eq_true, if_false, List.cons.injEq, true_and]
        cases t with
        | nil => rfl
        | cons d t =>
          rw [escapeText_cons]
          unfold escapeChar
          by_cases hd : d ∈ special
          · rw [if_pos hd]
            simp only [List.cons_append, List.nil_append, subBlanks, if_true]
            rfl
          · rw [if_neg hd]
            have h1 : isBlank d = false := by
              cases h : isBlank d with
              | false => rfl
              | true => exact absurd (blank_special d h) hd
            have h2 : d ≠ '\\' := by intro e; subst e; exact hd (by decide)
            simp [subBlanks, h1, h2]
      · simp [hc]
  · rw [if_neg hs]
    have h1 : isBlank c = false := by
      cases h : isBlank c with
      | false => rfl
      | true => exact absurd (blank_special c h) hs
    have h2 : c ≠ '\\' := by intro e; subst e; exact hs (by decide)
    simp [subBlanks, h1, h2]

theorem subDigits_append (w : Str) (h : ∀ c ∈ w, isDigit c = false) (hn : w ≠ []) (d : Bool) (s : Str) :
    subDigits d (w ++ s) = w ++ subDigits false s := by
  induction w generalizing d with
  | nil => exact absurd rfl hn
  | cons c w ih =>
    have hc := h c (by simp)
    simp only [List.cons_append, subDigits, hc, Bool.false_eq_true, if_false]
    cases w with
    | nil => rfl
    | cons e w => rw [ih (fun x hx => h x (by simp [hx])) (by simp)]

theorem escapeChar_nodigit (c : Char) (h : isDigit c = false) : ∀ x ∈ escapeChar c, isDigit x = false := by
  unfold escapeChar
  split <;> simp [h]
  decide

theorem escapeChar_ne (c : Char) : escapeChar c ≠ [] := by unfold escapeChar; split <;> simp

theorem escapeChar_digit (c : Char) (h : isDigit c = true) : escapeChar c = [c] := by
  unfold escapeChar; rw [if_neg (digit_not_special c h)]

theorem blank_not_digit (c : Char) (h : isBlank c = true) : isDigit c = false := by
  simp only [isBlank, Bool.or_eq_true, beq_iff_eq] at h
  rcases h with rfl | rfl <;> decide

theorem chunk_lit (exact exactSp : Bool) (t : Str) : chunkText exact exactSp t = litText exact exactSp .other t := by
  cases exactSp with
  | true =>
    have key : ∀ (t : Str) (k : Kind) , k ≠ .blank → (if exact then escapeText t else subDigits (k = .digit) (escapeText t)) = litText exact true k t := by
      intro t
      induction t with
      | nil => intro k _; cases exact <;> rfl
      | cons c t ih =>
        intro k hk
        have i1 := ih .digit (by decide)
        have i2 := ih .other (by decide)
        cases exact with
        | true =>
          simp only [if_true, litText, Bool.not_true, Bool.false_and, Bool.false_eq_true, if_false, escapeText_cons] at i2 ⊢
          rw [i2]
        | false =>
          simp only [if_false, litText, Bool.not_true, Bool.false_and, Bool.false_eq_true, Bool.not_false, Bool.true_and, escapeText_cons] at i1 i2 ⊢
          by_cases hd : isDigit c = true
          · rw [escapeChar_digit c hd]
            simp only [List.cons_append, List.nil_append, subDigits, hd, if_true]
            simp only [decide_true] at i1
            by_cases h3 : k = .digit
            · simp [h3, i1]
            · simp [h3, i1]
          · have hd' : isDigit c = false := by simpa using hd
            rw [subDigits_append _ (escapeChar_nodigit c hd') (escapeChar_ne c)]
            simp only [hd', Bool.false_eq_true, if_false]
            rw [← i2]; simp
    have := key t .other (by decide)
    simp only [chunkText, if_true]
    simpa using this
  | false =>
    have key : ∀ (t : Str) (k : Kind), (if exact then subBlanks (k = .blank) false (escapeText t)
        else subDigits (k = .digit) (subBlanks (k = .blank) false (escapeText t))) = litText exact false k t := by
      intro t
      induction t with
      | nil => intro k; cases exact <;> cases k <;> rfl
      | cons c t ih =>
        intro k
        have i1 := ih .digit
        have i2 := ih .other
        have i3 := ih .blank
        rw [subBlanks_esc]
        by_cases hb : isBlank c = true
        · simp only [litText, hb, Bool.not_false, Bool.and_self, if_true]
          cases exact with
          | true =>
            simp only [if_true, decide_true] at i3 ⊢
            by_cases h3 : k = .blank
            · simp [h3, i3]
            · simp [h3, i3]
          | false =>
            simp only [if_false, Bool.false_eq_true, decide_true, reduceCtorEq, decide_false] at i3 ⊢
            by_cases h3 : k = .blank
            · subst h3; simp only [decide_true, if_true, reduceCtorEq, decide_false]; exact i3
            · simp only [h3, decide_false, Bool.false_eq_true, if_false]
              rw [subDigits_append _ (by decide) (by decide), i3]
        · have hb' : isBlank c = false := by simpa using hb
          simp only [litText, hb', Bool.not_false, Bool.and_false, Bool.false_eq_true, if_false]
          cases exact with
          | true =>
            simp only [if_true, reduceCtorEq, decide_false, Bool.not_true, Bool.false_and, Bool.false_eq_true, if_false] at i2 ⊢
            rw [i2]
          | false =>
            simp only [if_false, Bool.false_eq_true, reduceCtorEq, decide_false, Bool.not_false, Bool.true_and, decide_true] at i1 i2 ⊢
            by_cases hd : isDigit c = true
            · rw [escapeChar_digit c hd]
              simp only [List.cons_append, List.nil_append, subDigits, hd, if_true]
              by_cases h3 : k = .digit
              · simp [h3, i1]
              · simp [h3, i1]
            · have hd' : isDigit c = false := by simpa using hd
              rw [subDigits_append _ (escapeChar_nodigit c hd') (escapeChar_ne c)]
              simp only [hd', Bool.false_eq_true, if_false]
              rw [i2]
    have := key t .other
    simp only [chunkText, Bool.false_eq_true, if_false]
    simpa using this

end TTP
