import Verif.Spec.Json
/-!
# Specification: arguments of functions as they are written
-/

namespace Spec
open Py

/-- white space: blanks, tabs, form feeds -/
def ABlank (s : Str) : Prop := ∀ c ∈ s, c = ' ' ∨ c = '\t' ∨ c.toNat = 12

/-- letters that stand for a character after a back slash -/
def argEscapes : List (Char × Char) :=
  [('\\', '\\'), ('\'', '\''), ('"', '"'), ('a', Char.ofNat 7), ('b', Char.ofNat 8), ('f', Char.ofNat 12), ('n', '\n'), ('r', '\r'), ('t', '\t'),
   ('v', Char.ofNat 11)]

/-- characters after a back slash with which other escapes begin -/
def argOthers : List Char := ['0', '1', '2', '3', '4', '5', '6', '7', 'x', 'N', 'u', 'U']

/-- not a line end, not a zero -/
def Inline (c : Char) : Prop := c ≠ '\n' ∧ c ≠ '\r' ∧ c.toNat ≠ 0

/-- what a text between quotes `q` denotes: a back slash before a letter of no escape stays -/
inductive AText (q : Char) : Str → Str → Prop
  | nil : AText q [] []
  | plain (c : Char) {t v : Str} : c ≠ q → c ≠ '\\' → Inline c → AText q t v → AText q (c :: t) (c :: v)
  | escape {e c : Char} {t v : Str} : (e, c) ∈ argEscapes → AText q t v → AText q ('\\' :: e :: t) (c :: v)
  | kept (c : Char) {t v : Str} : c ∉ argEscapes.map Prod.fst → c ∉ argOthers → Inline c → AText q t v → AText q ('\\' :: c :: t) ('\\' :: c :: v)

/-- texts in quotes one after the other: their values are joined (an empty text must not be followed by the same quote) -/
inductive ATexts : Str → Str → Prop
  | one {q : Char} {t v : Str} : (q = '"' ∨ q = '\'') → AText q t v → ATexts (q :: (t ++ [q])) v
  | more {q : Char} {t v w s u : Str} : (q = '"' ∨ q = '\'') → AText q t v → ABlank w → ATexts s u → (t = [] → (w ++ s).head? ≠ some q) →
      ATexts (q :: (t ++ (q :: (w ++ s)))) (v ++ u)

/-- a name: letters, digits and `_`, no digit first -/
def AName (n : Str) : Prop :=
  (∃ c r, n = c :: r ∧ ¬ JDigit c) ∧ ∀ d ∈ n, ('a' ≤ d ∧ d ≤ 'z') ∨ ('A' ≤ d ∧ d ≤ 'Z') ∨ d = '_' ∨ JDigit d

/-- key words of Python that cannot be names -/
def pythonWords : List Str :=
  [c!"and", c!"as", c!"assert", c!"async", c!"await", c!"break", c!"class", c!"continue", c!"def", c!"del", c!"elif", c!"else", c!"except", c!"finally",
   c!"for", c!"from", c!"global", c!"if", c!"import", c!"in", c!"is", c!"lambda", c!"nonlocal", c!"not", c!"or", c!"pass", c!"raise", c!"return", c!"try",
   c!"while", c!"with", c!"yield"]

/-- names that mean something else in the place where arguments are evaluated -/
def takenWords : List Str := [c!"re", c!"sys", c!"traceback", c!"logging", c!"log", c!"_UndefSubst", c!"_get_args_kwargs", c!"get_attributes", c!"_ttp_"]

/-- a name that can be used as a value without quotes -/
def Bare (n : Str) : Prop := AName n ∧ n ∉ pythonWords ∧ n ∉ takenWords ∧ ¬ c!"__" <+: n

/-- what a name means: `true`, `false` and `none` in whatever case, else its text -/
inductive BareMeans : Str → Val → Prop
  | false {n : Str} : lower n = c!"false" → BareMeans n (.bool false)
  | true {n : Str} : lower n = c!"true" → BareMeans n (.bool true)
  | none {n : Str} : lower n = c!"none" → BareMeans n .none
  | text {n : Str} : lower n ∉ [c!"false", c!"true", c!"none"] → BareMeans n (.str n)

/-- digits of an integer; Python reads 4300 of them -/
def ADigits (ds : Str) : Prop := IntDigits ds ∧ ds.length ≤ 4300

mutual
/-- the value of an argument: texts, integers, names, lists -/
inductive AValue : Str → Val → Prop
  | text {s v : Str} : ATexts s v → AValue s (.str v)
  | int {ds : Str} : ADigits ds → AValue ds (.int (decimal ds))
  | neg {w ds : Str} : ABlank w → ADigits ds → AValue ('-' :: (w ++ ds)) (.int (-(decimal ds : Int)))
  | name {n : Str} {v : Val} : Bare n → BareMeans n v → AValue n v
  | list {s : Str} {vs : List Val} : AValues s vs → AValue ('[' :: (s ++ [']'])) (.list vs)
/-- values with commas between them, and maybe one after the last -/
inductive AValues : Str → List Val → Prop
  | nil {w : Str} : ABlank w → AValues w []
  | last {a t b : Str} {v : Val} : ABlank a → AValue t v → ABlank b → AValues (a ++ (t ++ b)) [v]
  | more {a t b s : Str} {v : Val} {vs : List Val} : ABlank a → AValue t v → ABlank b → AValues s vs → AValues (a ++ (t ++ (b ++ (',' :: s)))) (v :: vs)
end

/-- an argument: a value, or `name = value` -/
inductive AItem : Str → Option Str × Val → Prop
  | value {t : Str} {v : Val} : AValue t v → AItem t (none, v)
  | named {n a b t : Str} {v : Val} : AName n → n ∉ pythonWords → n ∉ [c!"True", c!"False", c!"None"] → ¬ c!"__" <+: n → ABlank a → ABlank b → AValue t v →
      AItem (n ++ (a ++ ('=' :: (b ++ t)))) (some n, v)

/-- arguments with commas between them, and maybe one after the last -/
inductive AItems : Str → List (Option Str × Val) → Prop
  | nil {w : Str} : ABlank w → AItems w []
  | last {a t b : Str} {i : Option Str × Val} : ABlank a → AItem t i → ABlank b → AItems (a ++ (t ++ b)) [i]
  | more {a t b s : Str} {i : Option Str × Val} {is : List (Option Str × Val)} : ABlank a → AItem t i → ABlank b → AItems s is →
      AItems (a ++ (t ++ (b ++ (',' :: s)))) (i :: is)

/-- the arguments without a name, then the ones with names, which are different -/
def Ordered (is : List (Option Str × Val)) (args : List Val) (kwargs : Dict Str Val) : Prop :=
  is = args.map (fun v => (none, v)) ++ kwargs.map (fun p => (some p.1, p.2)) ∧ (kwargs.map Prod.fst).Nodup

/-- the text is arguments that denote these values -/
def Arguments (s : Str) (args : List Val) (kwargs : Dict Str Val) : Prop := ∃ is, AItems s is ∧ Ordered is args kwargs

end Spec
