import Verif.Model.Machine
/-!
# Specification: format strings
-/

namespace Spec
open Py TTP

/-- part of a format string: a text, or a name (or nothing, or a number) in braces -/
inductive FPart where
  | text (s : Str)
  | value (name : Str)

/-- how the part is written: braces of a text are doubled -/
def FPart.source : FPart → Str
  | .text s => s.flatMap (fun c => if c = '{' ∨ c = '}' then [c, c] else [c])
  | .value n => '{' :: (n ++ ['}'])

/-- the format string -/
def fmtSource (ps : List FPart) : Str := ps.flatMap FPart.source

/-- a name: not a number, without the characters that have a meaning in a field -/
def PlainName (n : Str) : Prop := (∃ c ∈ n, isDigit c = false) ∧ ∀ c ∈ n, c ∉ ['.', '[', '!', ':', '{', '}']

/-- `t` is the text with the values filled in for the names -/
inductive FilledIn (val : Str → Option Val) : List FPart → Str → Prop
  | nil : FilledIn val [] []
  | text {s : Str} {ps : List FPart} {t : Str} : FilledIn val ps t → FilledIn val (.text s :: ps) (s ++ t)
  | value {n : Str} {v : Val} {ps : List FPart} {t : Str} : val n = some v → FilledIn val ps t → FilledIn val (.value n :: ps) (pyStr v ++ t)

end Spec
