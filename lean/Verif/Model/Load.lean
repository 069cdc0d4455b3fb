import Verif.Py.Str
/-!
# Loading: outputs of groups and the cache of functions
-/

namespace TTP
open Py

/-! ## Outputs of groups -/

/-- An entry of `G.outputs`: first a name, after loading an output object. -/
inductive Slot (O : Type) where
  | name (n : Str)
  | obj (o : O)
deriving DecidableEq

variable {O : Type}

/-- The loop over `enumerate(self.outputs)` with `pop` inside, ttp/ttp.py 1084-1088: `before` are the outputs already passed,
the list after `before` is still to come. After a `pop` the next output moves to the current index and is not looked at.
The result: what remains of `self.outputs`, what was appended to `self.groups_outputs`, the output found last. -/
def globLoop (nm : O → Str) (n : Str) : List O → List O → List O × List O × Option O
  | before, [] => (before, [], none)
  | before, [o] => if nm o = n then (before, [o], some o) else (before ++ [o], [], none)
  | before, o :: p :: rest =>
    if nm o = n then
      let r := globLoop nm n (before ++ [p]) rest
      (r.1, o :: r.2.1, r.2.2.or (some o))
    else globLoop nm n (before ++ [o]) (p :: rest)

/-- Search in the group specific outputs: the last with the name, ttp/ttp.py 1093-1096 -/
def grpFind (nm : O → Str) (n : Str) (gouts : List O) : Option O := gouts.reverse.find? (fun o => decide (nm o = n))

/-- Both searches for one name, ttp/ttp.py 1082-1096: the new `self.outputs` and `self.groups_outputs` and what was found -/
def findSlot (nm : O → Str) (n : Str) (outs gouts : List O) : List O × List O × Option O :=
  let r := globLoop nm n [] outs
  (r.1, gouts ++ r.2.1, r.2.2.or (grpFind nm n (gouts ++ r.2.1)))

/-- The loop over `enumerate(G.outputs)` with `pop` inside, ttp/ttp.py 1081-1104: `before` are the entries already passed. After
a `pop` the next entry moves to the current index and is not looked at. Arguments: `self.outputs`, `self.groups_outputs`. -/
def slotsLoop (nm : O → Str) : List O → List O → List (Slot O) → List Str → List O × List O × List (Slot O)
  | outs, gouts, before, [] => (outs, gouts, before)
  | outs, gouts, before, [n] =>
    let r := findSlot nm n outs gouts
    (r.1, r.2.1, before ++ (r.2.2.map Slot.obj).toList)
  | outs, gouts, before, n :: m :: rest =>
    let r := findSlot nm n outs gouts
    match r.2.2 with
    | some o => slotsLoop nm r.1 r.2.1 (before ++ [.obj o]) (m :: rest)
    | none => slotsLoop nm r.1 r.2.1 (before ++ [.name m]) rest

/-- `update_groups_with_outputs`, ttp/ttp.py 1074-1104; before it all entries of `G.outputs` are names (1719) -/
def updateGroups (nm : O → Str) : List O → List O → List (List Str) → List O × List O × List (List (Slot O))
  | outs, gouts, [] => (outs, gouts, [])
  | outs, gouts, g :: gs =>
    let r := slotsLoop nm outs gouts [] g
    let r2 := updateGroups nm r.1 r.2.1 gs
    (r2.1, r2.2.1, r.2.2 :: r2.2.2)

/-! ## The cache of functions -/

/-- What is in the cache file: nothing, something `pickle` cannot load, an object in which `["python_major_version"]` cannot be
looked up, a dictionary with that key, perhaps `__version__`, and the table of functions `T`. -/
inductive Cache (T : Type) where
  | absent
  | unreadable
  | other
  | dict (py : Nat) (ver : Option Str) (table : T)
deriving DecidableEq

/-- Saving the cache: it works, the file cannot be opened (and stays as it is), or `pickle.dump` fails half-way. -/
inductive Saving where
  | works
  | cannotOpen
  | breaks
deriving DecidableEq

/-- the cache file after `pickle.dump`, ttp/ttp.py 167-175 -/
def saveCache {T : Type} (old new : Cache T) : Saving → Cache T
  | .works => new
  | .cannotOpen => old
  | .breaks => .unreadable

/-- `lazy_import_functions`, ttp/ttp.py 72-177, of an installation with Python `py` and TTP version `ver`, whose files give the
table `installed`. The result: the table, whether it is from the cache, the cache file afterwards. A loaded object without
`python_major_version` makes the test in the `try` raise, which is caught, and then line 119 raises outside of it. -/
def lazyImport {T : Type} (py : Nat) (ver : Str) (installed : T) (c : Cache T) (s : Saving) : PyM (T × Bool × Cache T) :=
  match c with
  | .absent => pure (installed, false, saveCache c (.dict py none installed) s)
  | .unreadable => pure (installed, false, saveCache c (.dict py none installed) s)
  | .other => throw .keyError
  | .dict p v table =>
    if p = py ∧ v = some ver then pure (table, true, c)
    else pure (installed, false, saveCache c (.dict py (some ver) installed) s)

/-- a start of a program that uses TTP: version of Python, version of TTP, outcome of saving -/
structure Start where
  py : Nat
  ver : Str
  saving : Saving

/-- starts one after the other, with the same cache file; `tableOf py ver` is what the files of that version give -/
def lazyStarts {T : Type} (tableOf : Nat → Str → T) : List Start → Cache T → PyM (List (T × Bool) × Cache T)
  | [], c => pure ([], c)
  | a :: as, c => do
    let r ← lazyImport a.py a.ver (tableOf a.py a.ver) c a.saving
    let rs ← lazyStarts tableOf as r.2.2
    pure ((r.1, r.2.1) :: rs.1, rs.2)

end TTP
