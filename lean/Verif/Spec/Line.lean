import Verif.Py.Str
/-!
# Specification: what a template line means

Written without the line compiler and without regular expressions.
-/

namespace Spec
open Py

/-- space or tab -/
def Blank (c : Char) : Prop := c = ' ' ∨ c = '\t'

/-- decimal digit -/
def Digit (c : Char) : Prop := isDigit c = true

/-- not empty, blanks only -/
def Blanks (b : Str) : Prop := b ≠ [] ∧ ∀ c ∈ b, Blank c

/-- not empty, digits only -/
def Digits (b : Str) : Prop := b ≠ [] ∧ ∀ c ∈ b, Digit c

/-- not empty, no white space inside -/
def Word (w : Str) : Prop := w ≠ [] ∧ ∀ c ∈ w, isSpace c = false

/-- the text does not go on with a character of the class -/
def NotNext (p : Char → Prop) (t : Str) : Prop := ∀ c cs, t = c :: cs → ¬ p c

/-- `LitMatch blanks digits t x`: the literal template text `t` stands for the text `x`. If `blanks`, a (maximal) run of
blanks stands for any run of blanks; if `digits`, a (maximal) run of digits stands for any run of digits; everything
else stands for itself. -/
inductive LitMatch (blanks digits : Prop) : Str → Str → Prop
  | nil : LitMatch blanks digits [] []
  | char (c : Char) (t x : Str) : ¬ (blanks ∧ Blank c) → ¬ (digits ∧ Digit c) → LitMatch blanks digits t x →
      LitMatch blanks digits (c :: t) (c :: x)
  | blankRun (b b' t x : Str) : blanks → Blanks b → Blanks b' → NotNext Blank t → LitMatch blanks digits t x →
      LitMatch blanks digits (b ++ t) (b' ++ x)
  | digitRun (b b' t x : Str) : digits → Digits b → Digits b' → NotNext Digit t → LitMatch blanks digits t x →
      LitMatch blanks digits (b ++ t) (b' ++ x)

/-- An item of a template line: a literal word, or a variable with literal text right before and after it. -/
inductive Tok where
  | word (w : Str)
  | var (pre name post : Str)
  deriving DecidableEq, Repr

/-- the item as it is written in a template -/
def Tok.source : Tok → Str
  | .word w => w
  | .var p n q => p ++ c!"{{ " ++ n ++ c!" }}" ++ q

/-- a template line: items, each with the blanks written before it -/
def source (items : List (Str × Tok)) : Str := (items.map (fun i => i.1 ++ i.2.source)).flatten

/-- What an item stands for, and the values of its variable. -/
def TokText : Tok → Str → List (Str × Str) → Prop
  | .word w, x, vals => LitMatch True True w x ∧ vals = []
  | .var p n q, x, vals => ∃ v, Word v ∧ x = p ++ v ++ q ∧ vals = [(n, v)]

/-- `Renders items x vals`: text `x` is the template line with every variable replaced by a word, every run of blanks by
some run of blanks and every run of digits of a literal word by some run of digits; `vals` are the words the variables
were replaced by. -/
inductive Renders : List (Str × Tok) → Str → List (Str × Str) → Prop
  | nil : Renders [] [] []
  | cons (b b' : Str) (t : Tok) (ts : List (Str × Tok)) (x y : Str) (v w : List (Str × Str)) :
      (b = [] ∧ b' = [] ∨ b ≠ [] ∧ Blanks b') → TokText t x v → Renders ts y w →
      Renders ((b, t) :: ts) (b' ++ x ++ y) (v ++ w)

/-- Items that can be written in a template: words without white space and `{`; names made of letters, digits and
underscore that do not begin with a digit; no digits right before and after a variable. -/
def TokOK : Tok → Prop
  | .word w => Word w ∧ '{' ∉ w
  | .var p n q => n ≠ [] ∧ (∀ c ∈ n, isWord c = true) ∧ (∀ c cs, n = c :: cs → isDigit c = false) ∧
      n ∉ [c!"_start_", c!"_end_", c!"_line_", c!"ignore"] ∧
      (∀ c ∈ p ++ q, isSpace c = false ∧ isDigit c = false ∧ c ≠ '{')

/-- A well-formed template line: at least one item, blanks between the items. -/
def ItemsOK : List (Str × Tok) → Prop
  | [] => False
  | (b, t) :: ts => b = [] ∧ TokOK t ∧ ∀ i ∈ ts, Blanks i.1 ∧ TokOK i.2

/-- names of the variables -/
def tokNames : List (Str × Tok) → List Str
  | [] => []
  | (_, .word _) :: ts => tokNames ts
  | (_, .var _ n _) :: ts => n :: tokNames ts

end Spec
