import Verif.Spec.Plain
import Verif.Spec.Files
import Verif.Spec.Json
/-!
# Specification: the command line
-/

namespace Spec
open Py TTP

/-- the variables that the option `-v` gives: none without the option; else the members of a JSON dictionary, in which apostrophes may stand
for quotation marks -/
inductive CliVars (fl : Str → Str) : Str → Dict Str Val → Prop
  | none : CliVars fl [] []
  | some {s : Str} {vars : Dict Str Val} : s ≠ [] →
      JDocument fl (s.map (fun c => if c = '\'' then '"' else c)) (.dict (vars.map (fun kv => (Key.s kv.1, kv.2)))) → CliVars fl s vars

/-- the texts that the option `-d` gives: those of the files it names, or the text itself -/
inductive CliTexts (w : World) : Str → List Str → Prop
  | files {p : Str} {fs cs : List Str} : NamesFiles w p fs → fs.Nodup → All2 (FileText w) fs cs → CliTexts w p cs
  | text {s : Str} : NotAPath w s → CliTexts w s [s]

end Spec

namespace Spec
open Py TTP

/-- the results of one text as lines of a flat list: the records -/
def flatRows : Val → List Val
  | .list ys => ys
  | v => [v]

/-- The document that is printed, as the option `-s` wants it, of the results `ws` of the texts: a list with the list of results, a dictionary with
this list under the name of the template, or the records of all texts in one list. -/
inductive CliShape (ws : List Val) : Str → Val → Prop
  | list {s : Str} : lower s = c!"list" → CliShape ws s (.list [.list ws])
  | dictionary {s : Str} : lower s = c!"dictionary" → CliShape ws s (.dict [(.s c!"_root_template_", .list ws)])
  | flat {s : Str} : lower s = c!"flat_list" → CliShape ws s (.list (ws.flatMap flatRows))

/-- the option `-o` asks for JSON: its name, or the name of a format that the tool does not have -/
def WantsJson (s : Str) : Prop := s ≠ [] ∧ (s = c!"json" ∨ lower s ∉ [c!"json", c!"yaml", c!"raw", c!"pprint"])

end Spec
