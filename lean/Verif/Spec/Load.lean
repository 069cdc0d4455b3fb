import Verif.Model.Load
/-!
# Specification vocabulary for loading
-/

namespace TTP
open Py

variable {O : Type}

/-- the output object with the name -/
def named (nm : O → Str) (all : List O) (n : Str) : Option O := all.find? (fun o => decide (nm o = n))

/-- What becomes of the output names of a group: a known name becomes its object; an unknown name is dropped, and the name after
it stays a name. -/
def leftSlots (nm : O → Str) (all : List O) : List Str → List (Slot O)
  | [] => []
  | [n] => ((named nm all n).map Slot.obj).toList
  | n :: m :: rest =>
    match named nm all n with
    | some o => .obj o :: leftSlots nm all (m :: rest)
    | none => .name m :: leftSlots nm all rest

/-- the names among these that are looked up -/
def lookedUp (nm : O → Str) (all : List O) : List Str → List Str
  | [] => []
  | [n] => [n]
  | n :: m :: rest =>
    match named nm all n with
    | some _ => n :: lookedUp nm all (m :: rest)
    | none => n :: lookedUp nm all rest

/-- A cache file that, if it has a table for some version, has the table of that version, and that is not some other pickled
object. -/
def Cache.Honest {T : Type} (tableOf : Nat → Str → T) : Cache T → Prop
  | .absent => True
  | .unreadable => True
  | .other => False
  | .dict py ver table => ∀ v, ver = some v → table = tableOf py v

end TTP
