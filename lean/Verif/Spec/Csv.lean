import Verif.Spec.Format
/-!
# Specification: CSV texts
-/

namespace Spec
open Py

/-- between the quotes of a cell: a doubled quote stands for one -/
inductive CsvQuoted : Str → Str → Prop
  | nil : CsvQuoted [] []
  | char (c : Char) {t s : Str} : c ≠ '"' → CsvQuoted t s → CsvQuoted (c :: t) (c :: s)
  | quote {t s : Str} : CsvQuoted t s → CsvQuoted ('"' :: '"' :: t) ('"' :: s)

/-- a cell, as it is or in quotes -/
inductive CsvCell : Str → Str → Prop
  | plain (s : Str) : ',' ∉ s → (∀ r, s ≠ '"' :: r) → CsvCell s s
  | quoted {b s : Str} : CsvQuoted b s → CsvCell ('"' :: (b ++ ['"'])) s

/-- cells with commas between -/
inductive CsvLine : Str → List Str → Prop
  | one {t s : Str} : CsvCell t s → CsvLine t [s]
  | cons {t s q : Str} {cs : List Str} : CsvCell t s → CsvLine q cs → CsvLine (t ++ ',' :: q) (s :: cs)

/-- the characters at which `str.splitlines` ends a line -/
def lineBreaks : List Char :=
  ['\n', Char.ofNat 11, Char.ofNat 12, '\r', Char.ofNat 28, Char.ofNat 29, Char.ofNat 30, Char.ofNat 0x85, Char.ofNat 0x2028, Char.ofNat 0x2029]

/-- no line ends inside -/
def OneLine (l : Str) : Prop := ∀ c ∈ l, c ∉ lineBreaks

/-- the end of a line -/
def LineEnd (e : Str) : Prop := e = ['\n'] ∨ e = ['\r', '\n']

/-- `CsvText t rows`: the text has these rows, one per line; empty lines do not count. -/
inductive CsvText : Str → List (List Str) → Prop
  | nil : CsvText [] []
  | last {l : Str} {cs : List Str} : OneLine l → l ≠ [] → CsvLine l cs → CsvText l [cs]
  | line {l e q : Str} {cs : List Str} {rows : List (List Str)} : OneLine l → l ≠ [] → CsvLine l cs → LineEnd e → CsvText q rows →
      CsvText (l ++ (e ++ q)) (cs :: rows)
  | blank {e q : Str} {rows : List (List Str)} : LineEnd e → CsvText q rows → CsvText (e ++ q) rows

end Spec
