import Verif.Spec.Line
import Verif.Spec.Segments
import Verif.Spec.Whole
/-!
# Specification: tables under a line of headings

Written without the loader, regular expressions and the results machine.
-/

namespace Spec
open Py

/-- A line of headings in a template: indent, the headings, each with the blanks after it, and the number of columns that every row
has to have (`columns(n)`), if it is given. -/
structure HeadLine where
  indent : Str
  cols : List (Str × Str)
  columns : Option Nat

/-- names of the columns -/
def HeadLine.names (l : HeadLine) : List Str := l.cols.map (·.1)

/-- as it is written -/
def HeadLine.source (l : HeadLine) : Str :=
  l.indent ++ (l.cols.map (fun c => c.1 ++ c.2)).flatten ++
    match l.columns with
    | none => c!"{{ _headers_ }}"
    | some n => c!"{{ _headers_ | columns(" ++ natStr n ++ c!") }}"

/-- Headings are different identifiers without a meaning of their own, with blanks between them; if `columns` is not given there
are at least three. -/
structure HeadLine.OK (l : HeadLine) : Prop where
  indent : ∀ c ∈ l.indent, Blank c
  some : l.cols ≠ []
  ident : ∀ n ∈ l.names, n ≠ [] ∧ (∀ c ∈ n, isWord c = true) ∧ ∀ c cs, n = c :: cs → isDigit c = false
  nodup : l.names.Nodup
  free : ∀ n ∈ l.names, n ∉ reserved
  gaps : ∀ c ∈ l.cols, ∀ d ∈ c.2, Blank d
  apart : ∀ c ∈ l.cols.dropLast, c.2 ≠ []
  three : l.columns = none → 3 ≤ l.cols.length

/-- width of blanks before the first heading: a tab is four columns -/
def blankWidth (b : Str) : Nat := (b.map (fun c => if c = '\t' then 4 else 1)).sum

/-- where the next column begins, for all columns but the last: a column is as wide as its heading with the blanks after it; the
first one begins at the left edge -/
def HeadLine.widths (l : HeadLine) : List Nat :=
  match l.cols.dropLast with
  | [] => []
  | c :: cs => (blankWidth l.indent + c.1.length + c.2.length) :: cs.map (fun c => c.1.length + c.2.length)

/-- the number of columns a row has to have -/
def HeadLine.mandatory (l : HeadLine) : Nat :=
  match l.columns with
  | none => l.cols.length - 2
  | some n => min (max 1 n) l.cols.length

/-- the text cut at the widths; the last piece is the rest -/
def cutAt : List Nat → Str → List Str
  | [], t => [t]
  | w :: ws, t => t.take w :: cutAt ws (t.drop w)

/-- the cells of a text line, without the white space around them -/
def HeadLine.cells (l : HeadLine) (t : Str) : List (Str × Str) := l.names.zip ((cutAt l.widths t).map strip)

/-- A text line is a row if it goes beyond the column before the last mandatory one, and if no cell contains the name of its own
column. -/
def HeadLine.IsRow (l : HeadLine) (t : Str) : Prop :=
  (l.widths.take (l.mandatory - 1)).sum < t.length ∧ ∀ c ∈ l.cells t, ¬ c.1 <:+: c.2

/-- the group element `<group name="...">` with this one line -/
def tableXml (name : Str) (l : HeadLine) (tail : Option Str) : TTP.Xml :=
  .mk c!"group" [(c!"name", name)] (some ('\n' :: (l.source ++ c!"\n"))) [] tail

/-- the same keys with the same values -/
def SameDict (a b : Dict Key Val) : Prop := ∀ k, Dict.get? a k = Dict.get? b k

open Classical in
/-- what a template with one group `name*` and this line of headings makes of a text: a list with a record for every row, in order;
nothing if there is no row -/
def TableMeans (name : Str) (toInt : Bool) (l : HeadLine) (d : Str) (v : Val) : Prop :=
  ∃ recs, All2 SameDict (((splitC '\n' d).filter (fun t => decide (l.IsRow t))).map (fun t => recOf (l.cells t))) recs ∧
    v = if recs = [] then .dict [] else .dict [(pathKey toInt name, .list (recs.map .dict))]

end Spec
