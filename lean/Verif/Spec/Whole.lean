import Verif.Spec.Line
import Verif.Spec.Segments
import Verif.Spec.Tree
import Verif.Model.Template
/-!
# Specification: what a template with one flat group makes of a text

Written without the loader, the line compiler, regular expressions and the results machine. (Only the type of XML elements is
taken from the model.)
-/

namespace Spec
open Py

/-- A line of a template: indent, items, white space at the end. -/
structure TplLine where
  indent : Str
  items : List (Str × Tok)
  trail : Str

/-- as it is written -/
def TplLine.source (l : TplLine) : Str := l.indent ++ Spec.source l.items ++ l.trail

/-- words with a meaning of their own as names of variables -/
def reserved : List Str :=
  [c!"ignore", c!"_start_", c!"_end_", c!"_line_", c!"_exact_", c!"_exact_space_", c!"_headers_", c!"columns", c!"chain",
   c!"set", c!"default", c!"joinmatches", c!"re", c!"contains_re", c!"startswith_re", c!"endswith_re", c!"notstartswith_re",
   c!"notendswith_re", c!"exclude_re", c!"exclude", c!"contains", c!"equal", c!"notequal", c!"sformat"]

/-- Lines that can be written in a template: well-formed items, at least one variable, no variable twice, no reserved names,
blanks around, no comment. -/
structure TplLine.OK (l : TplLine) : Prop where
  items : ItemsOK l.items
  indent : ∀ c ∈ l.indent, Blank c
  trail : ∀ c ∈ l.trail, Blank c
  names : (tokNames l.items).Nodup
  some : tokNames l.items ≠ []
  free : ∀ n ∈ tokNames l.items, n ∉ reserved
  exact : ¬ c!"_exact_" <:+: l.indent ++ Spec.source l.items
  comment : ¬ c!"##" <+: Spec.source l.items

/-- The text line `t` (that may end with a carriage return) is a rendering of the template line with the values `vals`. -/
def TplLine.Fits (l : TplLine) (t : Str) (vals : List (Str × Str)) : Prop :=
  ∃ x b r, Renders l.items x vals ∧ (∀ c ∈ b, Blank c) ∧ (r = [] ∨ r = c!"\r") ∧ t = l.indent ++ x ++ b ++ r

/-- How a text line is read: it fits exactly one of the template lines (the number of it, and the values), or none. -/
def Reads (tpl : List TplLine) (t : Str) : Option (Nat × List (Str × Str)) → Prop
  | some (j, vals) => (∃ l, tpl[j]? = some l ∧ l.Fits t vals) ∧ ∀ i l v, tpl[i]? = some l → l.Fits t v → i = j
  | none => ∀ l ∈ tpl, ∀ v, ¬ l.Fits t v

/-- values as a record -/
def recOf (vals : List (Str × Str)) : Dict Key Val := vals.map (fun nv => (.s nv.1, .str nv.2))

/-- The first template line starts a record, the others add to it; text lines that fit no template line do not matter. -/
def evsOf : List (Option (Nat × List (Str × Str))) → List Ev
  | [] => []
  | none :: rs => evsOf rs
  | some (0, vals) :: rs => .start (recOf vals) :: evsOf rs
  | some (_ + 1, vals) :: rs => .line (recOf vals) :: evsOf rs

/-- the group element `<group name="...">` with these lines -/
def groupXml (name : Str) (tpl : List TplLine) (tail : Option Str) : TTP.Xml :=
  .mk c!"group" [(c!"name", name)] (some ('\n' :: (tpl.map (fun l => l.source ++ c!"\n")).flatten)) [] tail

/-- Names of groups: one path item, no asterisks or placeholders. -/
def GroupName (n : Str) : Prop := n ≠ [] ∧ n ≠ c!"_" ∧ n ≠ c!"_anonymous_" ∧ ∀ c ∈ n, c ≠ '.' ∧ c ≠ '*' ∧ c ≠ '{' ∧ c ≠ '/'

/-- `v` is what a template with the one group `name*` that has these lines makes of the text `d`: every line of the text is read as
(at most) one template line, the lines are cut into records at the first template line, and the records are the list under the name
of the group; nothing at all if there is no record. -/
def Means (name : Str) (toInt : Bool) (tpl : List TplLine) (d : Str) (v : Val) : Prop :=
  ∃ reads recs, All2 (Reads tpl) (splitC '\n' d) reads ∧ All2 (IsRecordOf []) (segments (evsOf reads)) recs ∧
    v = if recs = [] then .dict [] else .dict [(pathKey toInt name, .list (recs.map .dict))]

/-- every line of the text is read as at most one template line -/
def Clear (tpl : List TplLine) (d : Str) : Prop := ∀ t ∈ splitC '\n' d, ∃ r, Reads tpl t r

end Spec
