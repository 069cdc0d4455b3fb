import Verif.Model.Multi
/-!
# Functions that are imported when they are called for the first time

Every `ttp` object of a process has its own table of functions; the modules with the functions are those of the process, and each
has one global name `_ttp_`, through which its functions read the variables, lookup tables, results and other functions.
-/

namespace TTP
open Py

/-- A file with functions, as `lazy_import_functions` finds it, ttp/ttp.py 123-155: the name of its directory, its own name, the
public functions in it, its `_name_map_`. -/
structure PyFile where
  dir : Str
  mod : Str
  funs : List Str
  map : Dict Str Str
deriving DecidableEq

/-- the name of a function in templates, `_name_map_.get(func_name, func_name)`, ttp/ttp.py 57, 160 -/
def PyFile.nameOf (p : PyFile) (f : Str) : Str := (Dict.get? p.map f).getD f

/-- a function: one of TTP, or one that the user added -/
inductive Func (U : Type) where
  | builtin (dir mod func : Str)
  | user (u : U)
deriving DecidableEq

/-- What is in the table under a name: a `CachedModule` (with its file, whose path, directory and functions it has, and the name of
the function, ttp/ttp.py 36-41), or a function. -/
inductive LazyEntry (U : Type) where
  | cached (p : PyFile) (name : Str)
  | fn (f : Func U)
deriving DecidableEq

/-- `_ttp_[scope][name] = e`, if there is the scope -/
def putEntry {U : Type} (t : FnTable (LazyEntry U)) (scope name : Str) (e : LazyEntry U) : FnTable (LazyEntry U) :=
  match Dict.get? t scope with
  | none => t
  | some fs => Dict.set t scope (Dict.set fs name e)

/-- one file of `lazy_import_functions`: a `CachedModule` for every function, ttp/ttp.py 156-164 -/
def cacheFile {U : Type} (t : FnTable (LazyEntry U)) (p : PyFile) : FnTable (LazyEntry U) :=
  p.funs.foldl (fun t f => putEntry (Dict.setdefault t p.dir []) p.dir (p.nameOf f) (.cached p (p.nameOf f))) t

/-- the table of functions of a new `ttp` object, ttp/ttp.py 77-83, 123-164; of the other entries only `macro` -/
def newTable {U : Type} (files : List PyFile) : FnTable (LazyEntry U) := files.foldl cacheFile [("macro".toList, [])]

/-- A process: the tables of its `ttp` objects, and for every module the object whose table is the `_ttp_` of the module.
Simplification: there is an object for every number from the beginning; making an object changes nothing but the object. -/
structure Process (U : Type) where
  objs : Nat → FnTable (LazyEntry U)
  owner : Dict (Str × Str) Nat

/-- the process at the beginning: no module is imported -/
def Process.start {U : Type} (files : List PyFile) : Process U := ⟨fun _ => newTable files, []⟩

/-- a change of the table of one object -/
def setObj {T : Type} (objs : Nat → T) (i : Nat) (t : T) : Nat → T := fun j => if j = i then t else objs j

/-- the assignments of `CachedModule.load`, ttp/ttp.py 56-58 -/
def loadInto {U : Type} (t : FnTable (LazyEntry U)) (p : PyFile) : FnTable (LazyEntry U) :=
  p.funs.foldl (fun t f => putEntry t p.dir (p.nameOf f) (.fn (.builtin p.dir p.mod f))) t

/-- `CachedModule.load` of object `i`: the `_ttp_` of the module becomes that of the object, and the functions of the file go into
the table, ttp/ttp.py 43-58 -/
def loadFile {U : Type} (s : Process U) (i : Nat) (p : PyFile) : Process U :=
  ⟨setObj s.objs i (loadInto (s.objs i) p), Dict.set s.owner (p.dir, p.mod) i⟩

/-- What a call runs: the function, and for a function of TTP the object whose table its module sees. -/
structure Ran (U : Type) where
  what : Func U
  sees : Option Nat
deriving DecidableEq

/-- the object whose `_ttp_` a function sees; a function of the user has that of nobody (without `add_ttp`) -/
def seesOf {U : Type} (owner : Dict (Str × Str) Nat) : Func U → Option Nat
  | .builtin d m _ => Dict.get? owner (d, m)
  | .user _ => none

/-- the call of what `load` left in the table, ttp/ttp.py 69; always a function -/
def ranEntry {U : Type} (s : Process U) : Option (LazyEntry U) → PyM (Ran U × Process U)
  | some (.fn f) => pure (⟨f, seesOf s.owner f⟩, s)
  | some (.cached _ _) => throw .runtimeError
  | none => throw .keyError

/-- a call of `_ttp_[scope][name]` of object `i`: a `CachedModule` loads its file first, ttp/ttp.py 60-69 -/
def callName {U : Type} (s : Process U) (i : Nat) (scope name : Str) : PyM (Ran U × Process U) :=
  match (s.objs i).find scope name with
  | none => throw .keyError
  | some (.fn f) => pure (⟨f, seesOf s.owner f⟩, s)
  | some (.cached p n) => ranEntry (loadFile s i p) (((loadFile s i p).objs i).find p.dir n)

/-- `add_function` of object `i`, ttp/ttp.py 797-800 (the table `_custom_functions_` is in Model/Multi); an unknown scope raises -/
def addName {U : Type} (s : Process U) (i : Nat) (scope name : Str) (u : U) : PyM (Process U) :=
  if Dict.has (s.objs i) scope then pure ⟨setObj s.objs i (putEntry (s.objs i) scope name (.fn (.user u))), s.owner⟩
  else throw .keyError

/-- what a program does with its objects: it adds functions, and parsing calls functions -/
inductive FnOp (U : Type) where
  | add (i : Nat) (scope name : Str) (u : U)
  | call (i : Nat) (scope name : Str)
deriving DecidableEq

/-- one step; if it raises, nothing has changed -/
def fnStep {U : Type} (s : Process U) : FnOp U → Process U
  | .add i sc n u => match addName s i sc n u with | .ok s' => s' | .error _ => s
  | .call i sc n => match callName s i sc n with | .ok r => r.2 | .error _ => s

/-- the process after a history -/
def fnAfter {U : Type} (files : List PyFile) (h : List (FnOp U)) : Process U := h.foldl fnStep (Process.start files)

/-- what a call of the name in object `i` runs after the history -/
def callAfter {U : Type} (files : List PyFile) (h : List (FnOp U)) (i : Nat) (scope name : Str) : PyM (Ran U) := do
  let r ← callName (fnAfter files h) i scope name
  pure r.1

/-- The files of this installation with Python 3, in some order, from the directories of ttp (names of the functions by reading
the files; `ttp.py` and files that begin with `_` are left out, ttp/ttp.py 119-141) -/
def ttpFiles : List PyFile := [
  ⟨"formatters".toList, "csv_formatter".toList, ["csv_formatter".toList], [("csv_formatter".toList, "csv".toList)]⟩,
  ⟨"formatters".toList, "excel_formatter".toList, ["excel_formatter".toList], [("excel_formatter".toList, "excel".toList)]⟩,
  ⟨"formatters".toList, "jinja2_formatter".toList, ["jinja2_formatter".toList], [("jinja2_formatter".toList, "jinja2".toList)]⟩,
  ⟨"formatters".toList, "json_formatter".toList, ["json_formatter".toList], [("json_formatter".toList, "json".toList)]⟩,
  ⟨"formatters".toList, "n2g_formatter".toList, ["n2g".toList], []⟩,
  ⟨"formatters".toList, "pprint_formatter".toList, ["pprint_formatter".toList], [("pprint_formatter".toList, "pprint".toList)]⟩,
  ⟨"formatters".toList, "raw_formatter".toList, ["raw".toList], []⟩,
  ⟨"formatters".toList, "table_formatter".toList, ["table".toList], []⟩,
  ⟨"formatters".toList, "tabulate_formatter".toList, ["tabulate_formatter".toList], [("tabulate_formatter".toList, "tabulate".toList)]⟩,
  ⟨"formatters".toList, "yaml_formatter".toList, ["yaml_formatter".toList], [("yaml_formatter".toList, "yaml".toList)]⟩,
  ⟨"group".toList, "contains".toList, ["contains".toList], []⟩,
  ⟨"group".toList, "contains_val".toList, ["contains_val".toList], []⟩,
  ⟨"group".toList, "containsall".toList, ["containsall".toList], []⟩,
  ⟨"group".toList, "delete".toList, ["delete_func".toList], [("delete_func".toList, "del".toList)]⟩,
  ⟨"group".toList, "equal".toList, ["equal".toList], []⟩,
  ⟨"group".toList, "exclude".toList, ["exclude".toList], []⟩,
  ⟨"group".toList, "exclude_val".toList, ["exclude_val".toList], []⟩,
  ⟨"group".toList, "excludeall".toList, ["excludeall".toList], []⟩,
  ⟨"group".toList, "expand".toList, ["expand".toList], []⟩,
  ⟨"group".toList, "itemize".toList, ["itemize".toList], []⟩,
  ⟨"group".toList, "items2dict".toList, ["items2dict".toList], []⟩,
  ⟨"group".toList, "lookup".toList, ["lookup".toList], []⟩,
  ⟨"group".toList, "macro".toList, ["macro".toList], []⟩,
  ⟨"group".toList, "record".toList, ["record".toList], []⟩,
  ⟨"group".toList, "set_".toList, ["set_func".toList], [("set_func".toList, "set".toList)]⟩,
  ⟨"group".toList, "sformat".toList, ["sformat".toList], []⟩,
  ⟨"group".toList, "to_converters".toList, ["str_to_unicode".toList, "to_int".toList], []⟩,
  ⟨"group".toList, "to_ip".toList, ["to_ip".toList], []⟩,
  ⟨"group".toList, "validate_cerberus".toList, ["cerberus_validate".toList, "validate".toList], [("cerberus_validate".toList, "cerberus".toList)]⟩,
  ⟨"group".toList, "void".toList, ["void".toList], []⟩,
  ⟨"input".toList, "commands".toList, ["extract_commands".toList], []⟩,
  ⟨"input".toList, "macro".toList, ["macro".toList], []⟩,
  ⟨"input".toList, "test".toList, ["test".toList], []⟩,
  ⟨"lookup".toList, "geoip2".toList, ["geoip2_db_loader".toList], []⟩,
  ⟨"match".toList, "copy_".toList, ["copy_func".toList], [("copy_func".toList, "copy".toList)]⟩,
  ⟨"match".toList, "count".toList, ["count".toList], []⟩,
  ⟨"match".toList, "dns_lookups".toList, ["dns_forward".toList, "dns_reverse".toList], [("dns_forward".toList, "dns".toList), ("dns_reverse".toList, "rdns".toList)]⟩,
  ⟨"match".toList, "geoip_lookup".toList, ["geoip_lookup".toList], []⟩,
  ⟨"match".toList, "ip".toList, ["to_ip".toList, "is_ip".toList, "to_net".toList, "to_cidr".toList, "ip_info".toList, "cidr_match".toList], []⟩,
  ⟨"match".toList, "item".toList, ["item".toList], []⟩,
  ⟨"match".toList, "joinmatches".toList, ["joinmatches".toList], []⟩,
  ⟨"match".toList, "let".toList, ["let".toList], []⟩,
  ⟨"match".toList, "lookup".toList, ["lookup".toList, "rlookup".toList, "gpvlookup".toList], []⟩,
  ⟨"match".toList, "mac_eui".toList, ["mac_eui".toList], []⟩,
  ⟨"match".toList, "macro".toList, ["macro".toList], []⟩,
  ⟨"match".toList, "raise_".toList, ["raise_func".toList], [("raise_func".toList, "raise".toList)]⟩,
  ⟨"match".toList, "re_".toList, ["startswith_re".toList, "endswith_re".toList, "contains_re".toList, "notstartswith_re".toList, "notendswith_re".toList, "exclude_re".toList, "resub".toList, "resuball".toList], []⟩,
  ⟨"match".toList, "record".toList, ["record".toList], []⟩,
  ⟨"match".toList, "set_".toList, ["set_func".toList], [("set_func".toList, "set".toList)]⟩,
  ⟨"match".toList, "string".toList, ["exclude".toList, "equal".toList, "notequal".toList, "contains".toList, "sformat".toList, "isdigit".toList, "notdigit".toList, "greaterthan".toList, "lessthan".toList, "join".toList, "append".toList, "prepend".toList, "sprint".toList, "replaceall".toList, "truncate".toList], [("sprint".toList, "print".toList)]⟩,
  ⟨"match".toList, "to".toList, ["to_str".toList, "to_list".toList, "to_int".toList, "to_float".toList, "to_unicode".toList], []⟩,
  ⟨"match".toList, "unrange".toList, ["unrange".toList], []⟩,
  ⟨"match".toList, "uptimeparse".toList, ["uptimeparse".toList], []⟩,
  ⟨"match".toList, "void".toList, ["void".toList], []⟩,
  ⟨"output".toList, "deepdiffer".toList, ["deepdiff_func".toList], [("deepdiff_func".toList, "deepdiff".toList)]⟩,
  ⟨"output".toList, "is_equal".toList, ["is_equal".toList], []⟩,
  ⟨"output".toList, "macro".toList, ["macro".toList], []⟩,
  ⟨"output".toList, "transform".toList, ["traverse".toList, "dict_to_list".toList], []⟩,
  ⟨"output".toList, "validate_cerberus".toList, ["validate".toList], []⟩,
  ⟨"output".toList, "validate_yangson".toList, ["validate_yangson".toList], []⟩,
  ⟨"patterns".toList, "get_pattern".toList, ["get".toList], []⟩,
  ⟨"returners".toList, "file_returner".toList, ["file_returner".toList], [("file_returner".toList, "file".toList)]⟩,
  ⟨"returners".toList, "self_returner".toList, ["self_returner".toList], [("self_returner".toList, "self".toList)]⟩,
  ⟨"returners".toList, "syslog_returner".toList, ["syslog".toList], []⟩,
  ⟨"returners".toList, "terminal_returner".toList, ["terminal_returner".toList], [("terminal_returner".toList, "terminal".toList)]⟩,
  ⟨"utils".toList, "get_attributes".toList, ["get_attributes".toList], []⟩,
  ⟨"utils".toList, "guess".toList, ["guess".toList], []⟩,
  ⟨"utils".toList, "load_python_exec_py3".toList, ["load_python_exec".toList], []⟩,
  ⟨"utils".toList, "loaders".toList, ["load_files".toList, "load_struct".toList, "load_text".toList, "load_ini".toList, "load_python".toList, "load_yaml".toList, "load_json".toList, "load_csv".toList], []⟩,
  ⟨"utils".toList, "quick_parse".toList, ["quick_parse".toList], []⟩,
  ⟨"variable".toList, "getfilename".toList, ["getfilename".toList], []⟩,
  ⟨"variable".toList, "gethostname".toList, ["gethostname".toList], []⟩,
  ⟨"variable".toList, "time_funcs".toList, ["get_time".toList, "get_date".toList, "get_timestamp_ms".toList, "get_timestamp".toList, "get_time_ns".toList, "get_timestamp_iso".toList], []⟩]

end TTP
