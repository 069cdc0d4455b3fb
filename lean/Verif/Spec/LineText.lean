import Verif.Model.LineText
/-!
# Specification: the text of a regular expression
-/

namespace Spec
open Py TTP

/-- A variable written in the usual way: no pattern contains `{{`, `ignore` has at most one argument and no `set`, `_line_` as a name
stands for the pattern of TTP. -/
structure Usual (v : TextVar) : Prop where
  res : ∀ p ∈ v.res, ¬ c!"{{" <:+: p
  ign : ∀ p, v.ign = .one p → ¬ c!"{{" <:+: p
  one : v.ign ≠ .many
  set : v.name = c!"ignore" → v.set = false
  line : v.name = c!"_line_" → v.res.head? = some c!".+"

/-- does the line end at this variable: `_start_`, `_end_`, `set` -/
def EndsLine (v : TextVar) : Bool := (v.name == c!"_start_" || v.name == c!"_end_" || v.set) && v.name != c!"ignore"

/-- the names under which a line captures: its variables up to the first that ends the line, without `ignore` -/
def captured (vs : List TextVar) : List Str :=
  ((vs.takeWhile (fun v => !EndsLine v)).filter (fun v => v.name != c!"ignore")).map (·.name)

/-- the pattern can be compiled, and has no named groups of its own -/
def PlainPattern (p : Str) : Prop := ∃ r, ReText.parseAll p = some r ∧ ReText.names r = []

end Spec
