import Verif.Model.Object
/-!
# Parsing in several processes

Model of `__parse_in_multiprocess` (ttp/ttp.py 453-496) and of `_worker` (821-882) as a system of processes that take
steps in any order. `J` are the tasks, `R` the results, `G` the global variables a worker has of its own. Not modelled:
failures of the operating system (no memory, killed processes) and of pickling.
-/

namespace TTP
open Py

/-- Where a worker is in its loop, ttp/ttp.py 861-882. `stopping`: it has taken a pill (`None`), `task_done()` is next.
`putting`: it has called `task_done()`, `put(result)` is next. `crashed`: parsing raised. -/
inductive WState (J R G : Type) where
  | idle (g : G)
  | busy (j : J) (g : G)
  | putting (r : R) (g : G)
  | stopping
  | done
  | crashed

/-- A worker process; `outbox` are results given to `results_queue.put` that its feeder thread has not yet written. -/
structure WProc (J R G : Type) where
  st : WState J R G
  outbox : List R

/-- The whole: `toPut`: what the main process has still to put, `buf`: put but not yet written by the feeder thread of the
main process, `tasks`: written to the queue, `unfinished`: the counter of `JoinableQueue`, `joined`: `tasks.join()` has
returned, `results`: written results, `got`: results the main process has read. -/
structure Sys (J R G : Type) where
  toPut : List (Option J)
  buf : List (Option J)
  tasks : List (Option J)
  unfinished : Nat
  workers : List (WProc J R G)
  results : List R
  got : List R
  joined : Bool

variable {J R G : Type}

/-- The beginning: `n` workers with fresh global variables, one task for each data item and `n` pills, ttp/ttp.py 461-489 -/
def Sys.init (jobs : List J) (n : Nat) (g0 : G) : Sys J R G :=
  ⟨jobs.map some ++ List.replicate n none, [], [], 0, List.replicate n ⟨.idle g0, []⟩, [], [], false⟩

/-- One step of one of the processes or feeder threads; `parse` is what a worker does with a task (ttp/ttp.py 870-878). -/
inductive Step (parse : J → G → PyM (R × G)) (num : Nat) : Sys J R G → Sys J R G → Prop
  /-- `tasks.put(...)`: the counter is raised at once, ttp/ttp.py 487, 489 -/
  | put {x xs buf tasks u ws rs got} :
      Step parse num ⟨x :: xs, buf, tasks, u, ws, rs, got, false⟩ ⟨xs, buf ++ [x], tasks, u + 1, ws, rs, got, false⟩
  /-- the feeder thread of the main process writes to the queue -/
  | feed {toPut x xs tasks u ws rs got jn} :
      Step parse num ⟨toPut, x :: xs, tasks, u, ws, rs, got, jn⟩ ⟨toPut, xs, tasks ++ [x], u, ws, rs, got, jn⟩
  /-- a worker takes a task, ttp/ttp.py 865 -/
  | take {toPut buf j ts u pre g ob post rs got jn} :
      Step parse num ⟨toPut, buf, some j :: ts, u, pre ++ ⟨.idle g, ob⟩ :: post, rs, got, jn⟩
        ⟨toPut, buf, ts, u, pre ++ ⟨.busy j g, ob⟩ :: post, rs, got, jn⟩
  /-- a worker takes a pill, ttp/ttp.py 865-867 -/
  | takePill {toPut buf ts u pre g ob post rs got jn} :
      Step parse num ⟨toPut, buf, none :: ts, u, pre ++ ⟨.idle g, ob⟩ :: post, rs, got, jn⟩
        ⟨toPut, buf, ts, u, pre ++ ⟨.stopping, ob⟩ :: post, rs, got, jn⟩
  /-- `task_done()` for a pill and the end of the loop, ttp/ttp.py 868-869 -/
  | stop {toPut buf ts u pre ob post rs got jn} :
      Step parse num ⟨toPut, buf, ts, u + 1, pre ++ ⟨.stopping, ob⟩ :: post, rs, got, jn⟩
        ⟨toPut, buf, ts, u, pre ++ ⟨.done, ob⟩ :: post, rs, got, jn⟩
  /-- parsing and `task_done()`, ttp/ttp.py 870-880 -/
  | finish {toPut buf ts u pre j g r g' ob post rs got jn} : parse j g = .ok (r, g') →
      Step parse num ⟨toPut, buf, ts, u + 1, pre ++ ⟨.busy j g, ob⟩ :: post, rs, got, jn⟩
        ⟨toPut, buf, ts, u, pre ++ ⟨.putting r g', ob⟩ :: post, rs, got, jn⟩
  /-- parsing raises: the process ends without `task_done()` -/
  | crash {toPut buf ts u pre j g e ob post rs got jn} : parse j g = .error e →
      Step parse num ⟨toPut, buf, ts, u, pre ++ ⟨.busy j g, ob⟩ :: post, rs, got, jn⟩
        ⟨toPut, buf, ts, u, pre ++ ⟨.crashed, ob⟩ :: post, rs, got, jn⟩
  /-- `results_queue.put(result)`, ttp/ttp.py 881 -/
  | putResult {toPut buf ts u pre r g ob post rs got jn} :
      Step parse num ⟨toPut, buf, ts, u, pre ++ ⟨.putting r g, ob⟩ :: post, rs, got, jn⟩
        ⟨toPut, buf, ts, u, pre ++ ⟨.idle g, ob ++ [r]⟩ :: post, rs, got, jn⟩
  /-- the feeder thread of a worker writes a result (also after the worker's loop has ended) -/
  | send {toPut buf ts u pre st r ob post rs got jn} :
      Step parse num ⟨toPut, buf, ts, u, pre ++ ⟨st, r :: ob⟩ :: post, rs, got, jn⟩
        ⟨toPut, buf, ts, u, pre ++ ⟨st, ob⟩ :: post, rs ++ [r], got, jn⟩
  /-- `tasks.join()` returns when the counter is zero, ttp/ttp.py 492 -/
  | join {buf ts ws rs got} :
      Step parse num ⟨[], buf, ts, 0, ws, rs, got, false⟩ ⟨[], buf, ts, 0, ws, rs, got, true⟩
  /-- `results_queue.get()`, as often as there were tasks, ttp/ttp.py 494-495 -/
  | get {toPut buf ts u ws r rs got} : got.length < num →
      Step parse num ⟨toPut, buf, ts, u, ws, r :: rs, got, true⟩ ⟨toPut, buf, ts, u, ws, rs, got ++ [r], true⟩

/-- any number of steps -/
inductive Steps (parse : J → G → PyM (R × G)) (num : Nat) : Nat → Sys J R G → Sys J R G → Prop
  | refl (s : Sys J R G) : Steps parse num 0 s s
  | tail {k : Nat} {s t u : Sys J R G} : Steps parse num k s t → Step parse num t u → Steps parse num (k + 1) s u

/-- the main process has collected as many results as there were tasks, ttp/ttp.py 494-496 -/
def Sys.Finished (num : Nat) (s : Sys J R G) : Prop := s.joined = true ∧ s.got.length = num

/-- `form_results` for each collected result, in the order collected, ttp/ttp.py 494-496 -/
def collectResults (t : Tpl) : List Val → PyM Tpl
  | [] => pure t
  | r :: rs => do collectResults (← formResults t r) rs

/-- the task of a worker: set_data and parse, ttp/ttp.py 870-878 -/
def workerParse (E : Engine) (t : Tpl) (j : TInput × Datum) (g : Dict Str Val) : PyM (Val × Dict Str Val) :=
  parseDatum E t j.1 j.2 (.dict []) g

/-- A finished run of `parse(multi=True)` for one template with `n` worker processes: some schedule of the workers, then
`form_results` of what was collected, ttp/ttp.py 459-496. Each worker starts with no global variables (836-842). -/
def MultiParsed (E : Engine) (n : Nat) (t t' : Tpl) : Prop :=
  ∃ k s, Steps (workerParse E t) (jobsOf t).length k (Sys.init (jobsOf t) n []) s ∧ s.Finished (jobsOf t).length ∧
    collectResults t s.got = .ok t'

/-! ## Functions of the worker processes -/

/-- functions by scope and name -/
abbrev FnTable (F : Type) := Dict Str (Dict Str F)

/-- `add_function`: the function goes into the table and into `_custom_functions_`, ttp/ttp.py 797-805; an unknown scope
raises `KeyError` -/
def addFunction {F : Type} (table custom : FnTable F) (scope name : Str) (f : F) : PyM (FnTable F × FnTable F) :=
  match Dict.get? table scope with
  | none => throw .keyError
  | some fs =>
    pure (Dict.set table scope (Dict.set fs name f),
      Dict.set custom scope (Dict.set ((Dict.get? custom scope).getD []) name f))

/-- the table of a worker: a fresh one, updated with the custom functions, ttp/ttp.py 836-837 -/
def workerTable {F : Type} (base custom : FnTable F) : FnTable F := Dict.update base custom

/-- `_ttp_[scope][name]` -/
def FnTable.find {F : Type} (t : FnTable F) (scope name : Str) : Option F := (Dict.get? t scope).bind (fun fs => Dict.get? fs name)

end TTP
