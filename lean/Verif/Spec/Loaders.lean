import Verif.Spec.Files
import Verif.Spec.Csv
import Verif.Spec.Json
import Verif.Spec.Tree
/-!
# Specification: data in tags and included files

Of the model only the file system is used.
-/

namespace Spec
open Py TTP

/-- the texts that the attribute `include` of a tag names -/
inductive Included (w : World) (a : Dict Str Str) : List Str → Prop
  | no : (∀ p, Dict.get? a c!"include" = some p → p = []) → Included w a []
  | text {p c : Str} : Dict.get? a c!"include" = some p → p ≠ [] → Given w p c → Included w a [c]
  | files {p : Str} {fs cs : List Str} : Dict.get? a c!"include" = some p → p ≠ [] → NamesFiles w p fs →
      All2 (fun f c => w.readFile f = .ok c) fs cs → Included w a cs

/-- `s` is the text of the tag followed by the texts, each on a new line -/
inductive Follows : Str → List Str → Str → Prop
  | nil {t : Str} : Follows t [] t
  | cons {t c s : Str} {cs : List Str} : Follows (t ++ '\n' :: c) cs s → Follows t (c :: cs) s

/-- the tag has something to load: a text, or the attribute `include` -/
def HasData (text : Str) (a : Dict Str Str) : Prop := text ≠ [] ∨ Dict.get? a c!"include" ≠ none

/-- the attribute `load` names this loader, in small or capital letters -/
def Named (a : Dict Str Str) (loader : Str) : Prop := ∃ l, Dict.get? a c!"load" = some l ∧ lower l = loader

end Spec
