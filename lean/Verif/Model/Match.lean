import Verif.Model.Parser
import Verif.Model.Fmt
import Verif.Model.Ip
/-!
# Match variable functions

Model of the functions of `ttp/match/` that are run on matched values, and of the call of one function by `check_matches`
(ttp/ttp.py 2449-2486). Not modelled: `to_ip`, `to_net` (they give objects),
`dns`, `rdns`, `geoip_lookup`; they are reached through `World.other`.
-/

namespace TTP
open Py

namespace MatchFn

/-! ## Python equality and calls -/

mutual
/-- `a == b`: numbers and booleans compare by value, dictionaries without order; simplification: floats compare by
their text -/
def pyEq : Val → Val → Bool
  | .none, .none => true
  | .bool a, .bool b => a == b
  | .bool a, .int n => (if a then 1 else 0) == n
  | .int n, .bool b => n == (if b then 1 else 0)
  | .int a, .int b => a == b
  | .flt a, .flt b => a == b
  | .str a, .str b => a == b
  | .list a, .list b => pyEqL a b
  | .dict a, .dict b => a.length == b.length && pyEqD a b
  | _, _ => false
/-- lists are equal item by item -/
def pyEqL : List Val → List Val → Bool
  | [], [] => true
  | a :: as, b :: bs => pyEq a b && pyEqL as bs
  | _, _ => false
/-- every entry of the first dictionary is in the second -/
def pyEqD : List (Key × Val) → List (Key × Val) → Bool
  | [], _ => true
  | (k, a) :: as, b => (match Dict.get? b k with
      | some v => pyEq a v
      | none => false) && pyEqD as b
end

/-- Binding of arguments to the parameters `names` of a Python function (after `data`): positional, then by name; too many,
unknown or double ones raise `TypeError`. `none` is a parameter that was not given. -/
def bindArgs (names : List Str) (f : FnCall) : PyM (List (Option Val)) :=
  if names.length < f.args.length || (Dict.keys f.kwargs).any (fun k => !names.contains k || (names.take f.args.length).contains k)
  then throw .typeError
  else pure (f.args.map some ++ (names.drop f.args.length).map (Dict.get? f.kwargs))

/-- a required parameter -/
def req : Option Val → PyM Val
  | some v => pure v
  | none => throw .typeError

/-- the argument of a string method must be a string -/
def reqStr : Val → PyM Str
  | .str s => pure s
  | _ => throw .typeError

/-- data used with a string method -/
def dataStr : Val → PyM Str
  | .str s => pure s
  | _ => throw .attributeError

/-- a value used as key of a dictionary; simplification: `None`, booleans and floats, which Python accepts, are rejected -/
def asKey : Val → PyM Key
  | .str s => pure (.s s)
  | .int n => pure (.i n)
  | _ => throw .typeError

/-- `x in data` -/
def inData (x : Val) : Val → PyM Bool
  | .str s => do pure (contains s (← reqStr x))
  | .list xs => pure (xs.any (fun y => pyEq y x))
  | .dict d => do pure (Dict.has d (← asKey x))
  | _ => throw .typeError

/-! ## ttp/match/string.py -/

/-- `exclude`, ttp/match/string.py 4-7 -/
def exclude (data pattern : Val) : PyM Bool := do pure (!(← inData pattern data))

/-- `contains`, ttp/match/string.py 18-22 -/
def containsAny (data : Val) : List Val → PyM Bool
  | [] => pure false
  | p :: ps => do if ← inData p data then pure true else containsAny data ps

/-- `isdigit`, ttp/match/string.py 30-31 (on a string) -/
def isdigit (s : Str) : Bool := isdigitS (strip s)

/-- `notdigit`, ttp/match/string.py 34-37 -/
def notdigit (s : Str) : Bool := if !isdigitS (strip s) then true else false

/-- `int(s)` of a string whose `strip()` is all digits -/
def digitsInt (s : Str) : Int := (intOfStr (strip s)).getD 0

/-- `greaterthan`, ttp/match/string.py 40-44 -/
def greaterthan (s value : Str) : Bool :=
  if isdigitS (strip s) && isdigitS (strip value) then decide (digitsInt s > digitsInt value) else false

/-- `lessthan`, ttp/match/string.py 47-51 -/
def lessthan (s value : Str) : Bool :=
  if isdigitS (strip s) && isdigitS (strip value) then decide (digitsInt s < digitsInt value) else false

/-- all items as strings, `TypeError` of `str.join` otherwise -/
def allStrs : List Val → PyM (List Str)
  | [] => pure []
  | v :: vs => do pure ((← reqStr v) :: (← allStrs vs))

/-- `join`, ttp/match/string.py 54-58 -/
def joinFn (data char : Val) : PyM Val :=
  match data with
  | .list xs => do
    let sep ← dataStr char
    pure (.str (join sep (← allStrs xs)))
  | v => pure v

/-- value of a name in the template variables, `_ttp_["vars"].get(char, char)`, ttp/match/string.py 63-65: the value from
the global variables is overwritten -/
def varOr (vars : Dict Str Val) (char : Val) : Val :=
  match char with
  | .str s => (Dict.get? vars s).getD (.str s)
  | v => v

/-- `append`, ttp/match/string.py 61-72 -/
def append (env : Env) (data char : Val) : PyM Val :=
  match data with
  | .str s => do pure (.str (s ++ (← reqStr (varOr env.vars char))))
  | .list xs => pure (.list (xs ++ [varOr env.vars char]))
  | v => pure v

/-- `prepend`, ttp/match/string.py 75-86 -/
def prepend (env : Env) (data char : Val) : PyM Val :=
  match data with
  | .str s => do pure (.str ((← reqStr (varOr env.vars char)) ++ s))
  | .list xs => pure (.list (varOr env.vars char :: xs))
  | v => pure v

/-- replace every string of the list, ttp/match/string.py 103-105 and 109-111 -/
def replaceEach (new : Str) : List Val → Str → Str
  | [], data => data
  | .str old :: vs, data => replaceEach new vs (replace data old new)
  | _ :: vs, data => replaceEach new vs data

/-- replacement by a dictionary new value -> old value(s), ttp/match/string.py 107-113; simplification: an integer key
raises `TypeError` even if there is nothing to replace -/
def replaceDict : List (Key × Val) → Str → PyM Str
  | [], data => pure data
  | (.s new, .list olds) :: kvs, data => replaceDict kvs (replaceEach new olds data)
  | (.s new, .str old) :: kvs, data => replaceDict kvs (replace data old new)
  | (.s _, _) :: kvs, data => replaceDict kvs data
  | (.i _, _) :: _, _ => throw .typeError

/-- one old value, ttp/match/string.py 100-115 -/
def replaceOne (vars : Dict Str Val) (new old data : Str) : PyM Str :=
  match Dict.get? vars old with
  | some (.list vs) => pure (replaceEach new vs data)
  | some (.dict kvs) => replaceDict kvs data
  | some _ => pure data
  | none => pure (replace data old new)

/-- the loop over the old values, ttp/match/string.py 100-115 -/
def replaceLoop (vars : Dict Str Val) (new : Str) : List Str → Str → PyM Str
  | [], data => pure data
  | old :: olds, data => do replaceLoop vars new olds (← replaceOne vars new old data)

/-- `replaceall`, ttp/match/string.py 94-116 -/
def replaceall (vars : Dict Str Val) (data : Str) (args : List Str) : PyM Str :=
  match args with
  | new :: old :: olds => replaceLoop vars new (old :: olds) data
  | olds => replaceLoop vars [] olds data

/-- `xs[0:n]` of Python, also for negative `n` -/
def takeInt {α : Type} (n : Int) (xs : List α) : List α :=
  if 0 ≤ n then xs.take n.toNat else xs.take (xs.length - (-n).toNat)

/-- `truncate`, ttp/match/string.py 119-123 -/
def truncate (data : Str) (n : Int) : Str :=
  let words := split [' '] data
  if n ≤ (words.length : Int) then join [' '] (takeInt n words) else data

/-! ## ttp/match/to.py -/

/-- `to_int`, ttp/match/to.py 14-23: `ValueError` keeps the data, `TypeError` is not caught; simplification: a float is
kept -/
def toInt : Val → PyM Val
  | .str s => pure (match intOfStr s with
    | some n => .int n
    | none => .str s)
  | .int n => pure (.int n)
  | .bool b => pure (.int (if b then 1 else 0))
  | .flt t => pure (.flt t)
  | _ => throw .typeError

/-! ## ttp/match/unrange.py -/

/-- `list(range(a, b))` -/
def pyRange (a b : Int) : List Int := (List.range (b - a).toNat).map (fun (i : Nat) => a + (i : Int))

/-- `data.split(sep)`, `ValueError` for an empty separator -/
def splitE (sep s : Str) : PyM (List Str) := if sep.isEmpty then throw .valueError else pure (split sep s)

/-- one piece between two range characters, ttp/match/unrange.py 18-35; `none` is the return after the caught
`ValueError` -/
def unrangeItem (joinchar : Str) (result : List Str) (item : Str) : PyM (Option (List Str)) := do
  let itemSplit := (← splitE joinchar item).filter (fun w => !w.isEmpty)
  match result.getLast? with
  | none => pure (some itemSplit)
  | some last =>
    match intOfStr last with
    | none => throw .valueError
    | some start =>
      match itemSplit with
      | [] => throw .indexError
      | w :: _ =>
        match intOfStr w with
        | none => pure none
        | some stop => pure (some (result ++ ((pyRange start stop).map intStr).drop 1 ++ itemSplit))

/-- the loop, ttp/match/unrange.py 18-35 -/
def unrangeLoop (joinchar : Str) : List Str → List Str → PyM (Option (List Str))
  | [], result => pure (some result)
  | item :: items, result => do
    match ← unrangeItem joinchar result item with
    | none => pure none
    | some r => unrangeLoop joinchar items r

/-- `unrange`, ttp/match/unrange.py 6-37 -/
def unrange (data rangechar joinchar : Str) : PyM Str :=
  if !contains data rangechar then pure data
  else do
    let items ← splitE rangechar data
    match ← unrangeLoop joinchar items [] with
    | none => pure data
    | some r => pure (join joinchar r)

/-! ## ttp/match/ip.py -/

/-- `bin(n).count("1")` for the absolute value of a number: ones of its binary digits; fuel = any bound -/
def onesAux : Nat → Nat → Nat
  | 0, _ => 0
  | fuel + 1, n => if n = 0 then 0 else n % 2 + onesAux fuel (n / 2)

/-- `bin(n).count("1")`, ttp/match/ip.py 55 (for a negative number `bin` writes the sign and the absolute value) -/
def ones (n : Int) : Nat := onesAux (n.natAbs + 1) n.natAbs

/-- `[int(x) for x in parts]`, `none` for `ValueError` -/
def allInts : List Str → Option (List Int)
  | [] => some []
  | w :: ws => match intOfStr w, allInts ws with
    | some n, some ns => some (n :: ns)
    | _, _ => none

/-- `to_cidr`, ttp/match/ip.py 50-61, on a string -/
def toCidr (data : Str) : Val :=
  match allInts (split ['.'] data) with
  | some ns => .int ((ns.map ones).sum : Nat)
  | none => .str data

/-! ## ttp/match/item.py -/

/-- `data[i]` of a Python sequence, `IndexError` out of range -/
def pyIdx {α : Type} (xs : List α) (i : Int) : PyM α :=
  let j := if i < 0 then i + xs.length else i
  if j < 0 then throw .indexError
  else match xs[j.toNat]? with
    | some x => pure x
    | none => throw .indexError

/-- `item`, ttp/match/item.py 1-15; `none` is the Python `None` after the last branch -/
def item {α : Type} (data : List α) (i : Int) : PyM (Option α) :=
  let len : Int := data.length
  if 0 ≤ i ∧ i ≤ len - 1 then do pure (some (← pyIdx data i))
  else if 0 ≤ i ∧ len - 1 ≤ i then do pure (some (← pyIdx data (-1)))
  else if i ≤ 0 ∧ (i.natAbs : Int) ≤ len - 1 then do pure (some (← pyIdx data i))
  else if i ≤ 0 ∧ len ≤ (i.natAbs : Int) then do pure (some (← pyIdx data 0))
  else pure none

/-! ## ttp/match/mac_eui.py -/

/-- pairs of characters, `[mac[i : i + 2] for i, j in enumerate(mac) if not (i % 2)]`, ttp/match/mac_eui.py 25 -/
def pairs : Str → List Str
  | [] => []
  | [a] => [[a]]
  | a :: b :: rest => [a, b] :: pairs rest

/-- the characters removed by `sub("[.:-]", "", mac)`, ttp/match/mac_eui.py 15 -/
def isMacSep (c : Char) : Bool := c == '.' || c == ':' || c == '-'

/-- `mac_eui`, ttp/match/mac_eui.py 12-26, on a string -/
def macEui (data : Str) : Str :=
  let mac := lower (data.filter (fun c => !isMacSep c))
  if isalnumS mac then
    let mac' := if mac.length = 12 then mac else mac ++ List.replicate (12 - mac.length) '0'
    join [':'] (pairs mac')
  else data

/-! ## Functions with variables -/

/-- `d[var] += 1`, and 1 if the key is missing, ttp/match/count.py 3-6 -/
def incr (d : Dict Str Val) (var : Str) : PyM (Dict Str Val) :=
  match Dict.get? d var with
  | none => pure (Dict.set d var (.int 1))
  | some (.int n) => pure (Dict.set d var (.int (n + 1)))
  | some (.bool b) => pure (Dict.set d var (.int (if b then 2 else 1)))
  | some _ => throw .typeError

/-- `if var: ... incr`, ttp/match/count.py 2 and 8; simplification: a name that is not a string raises `TypeError` -/
def incrIf (d : Dict Str Val) : Option Val → PyM (Dict Str Val)
  | none => pure d
  | some v => if v.truthy then (match v with
      | .str s => incr d s
      | _ => throw .typeError) else pure d

/-- `count`, ttp/match/count.py 1-14 -/
def count (var globvar : Option Val) (env : Env) : PyM Env := do
  let vars ← incrIf env.vars var
  let gvars ← incrIf env.gvars globvar
  pure { env with vars := vars, gvars := gvars }

/-- `record`, ttp/match/record.py 1-4 -/
def record (name : Str) (data : Val) (env : Env) : Env :=
  { env with vars := Dict.set env.vars name data, gvars := Dict.set env.gvars name data }

/-- `set_func`, ttp/match/set_.py 4-14: new value and flag -/
def setFn (env : Env) (data : Str) (value : Val) (line : Str) : Val × Flag :=
  if rstrip data = line then
    (match value with
      | .str s =>
        match Dict.get? env.vars s with
        | some v => v
        | none =>
          match Dict.get? env.gvars s with
          | some v => v
          | none => .str s
      | v => v, .nothing)
  else (.str data, .no)

/-- What a macro returns: a value or a tuple. -/
inductive MRes where
  | val (v : Val)
  | tup (vs : List Val)
  deriving DecidableEq, Repr

/-- result of a macro, ttp/match/macro.py 6-16; a tuple of another form becomes the value itself (here: a list) -/
def macroRes (data : Val) : MRes → Val × Flag
  | .val (.bool true) => (data, .yes)
  | .val (.bool false) => (data, .no)
  | .val .none => (data, .nothing)
  | .val v => (v, .nothing)
  | .tup [v, .dict d] => (v, .newField d)
  | .tup vs => (.list vs, .nothing)

/-- `lookup_data.get(i, {})` along the path, ttp/match/lookup.py 37-38; a value that is not a dictionary has no `get` -/
def lookupPath : Val → List Str → PyM Val
  | v, [] => pure v
  | .dict d, i :: is => lookupPath ((Dict.get? d (.s i)).getD (.dict [])) is
  | _, _ :: _ => throw .attributeError

/-- `lookup_data[data]`, ttp/match/lookup.py 41: `none` is `KeyError` -/
def lookupGet (table data : Val) : PyM (Option Val) :=
  match table with
  | .dict d => do pure (Dict.get? d (← asKey data))
  | _ => throw .typeError

/-- `[i.strip() for i in name.split(".")]`, ttp/match/lookup.py 11 -/
def lookupNames (name : Str) : List Str := (split ['.'] name).map strip

/-- the new value or the new field, ttp/match/lookup.py 45-48, 69-73 -/
def found (addField : Option Val) (data v : Val) : PyM (Val × Flag) :=
  match addField with
  | none => pure (v, .nothing)
  | some (.bool false) => pure (v, .nothing)
  | some k => do pure (data, .newField [(← asKey k, v)])

/-- the lookup itself, ttp/match/lookup.py 37-48: from the data found, down the path -/
def lookupIn (src : Val) (path : List Str) (addField : Option Val) (data : Val) : PyM (Val × Flag) := do
  let table ← lookupPath src path
  match ← lookupGet table data with
  | none => pure (data, .nothing)
  | some v => found addField data v

/-- `lookup` in the lookup tables, ttp/match/lookup.py 6-48 (argument `name`) -/
def lookup (lookups : Val) (name : Str) (addField : Option Val) (data : Val) : PyM (Val × Flag) :=
  lookupIn lookups (lookupNames name) addField data

/-- the data of `lookup(template=...)` and the path in them, ttp/match/lookup.py 14-25: results of the first template of that name, of its
first input if they are a list. `templates` are names and results of the templates. -/
def tplSource (templates : List (Str × Val)) : List Str → PyM (Val × List Str)
  | [] => pure (.dict [], [])
  | p :: rest =>
    match templates.find? (fun t => t.1 == p) with
    | none => pure (.dict [], p :: rest)
    | some (_, .list []) => throw .indexError
    | some (_, .list (r :: _)) => pure (r, rest)
    | some (_, v) => pure (v, rest)

/-- `path[0] in result` and `result[path[0]]` over the results, ttp/match/lookup.py 29-32: in a text, `in` looks for a part of it, and indexing by
a text is a `TypeError`; so it is for a list -/
def grpFind (p : Str) : List Val → PyM (Option Val)
  | [] => pure none
  | .dict d :: rs =>
    match Dict.get? d (.s p) with
    | some v => pure (some v)
    | none => grpFind p rs
  | .list l :: rs => if l.any (fun v => pyEq v (.str p)) then throw .typeError else grpFind p rs
  | .str s :: rs => if contains s p then throw .typeError else grpFind p rs
  | _ :: _ => throw .typeError

/-- what a `for` loop over the results of a template goes through: a dictionary gives its keys -/
def iterResults : Val → PyM (List Val)
  | .list l => pure l
  | .dict d => pure (d.map (fun kv => match kv.1 with
    | .s s => .str s
    | .i n => .int n))
  | _ => throw .typeError

/-- the data of `lookup(group=...)` and the path in them, ttp/match/lookup.py 27-33 -/
def grpSource (results : Val) : List Str → PyM (Val × List Str)
  | [] => pure (.dict [], [])
  | p :: rest => do
    match ← grpFind p (← iterResults results) with
    | some v => pure (v, rest)
    | none => pure (.dict [], rest)

/-- the first key that is contained in the data, ttp/match/lookup.py 63-66 -/
def rlookupFind (data : Val) : List (Key × Val) → PyM (Option Val)
  | [] => pure none
  | (k, v) :: kvs => do
    if ← inData (match k with | .s s => .str s | .i n => .int n) data then pure (some v) else rlookupFind data kvs

/-- `rlookup`, ttp/match/lookup.py 51-73 -/
def rlookup (lookups : Val) (name : Str) (addField : Option Val) (data : Val) : PyM (Val × Flag) := do
  let table ← lookupPath lookups (lookupNames name)
  match table with
  | .dict d => do
    match ← rlookupFind data d with
    | none => pure (data, .nothing)
    | some .none => pure (data, .nothing)
    | some v => found addField data v
  | _ => pure (data, .nothing)

/-! ## ttp/match/re_.py

A regular expression of the user is the list of its top level alternatives (`a|b|c`), given by `World.rx`. -/

/-- the whole regular expression of its top level alternatives -/
def alts : List Re → Re
  | [] => .eps
  | [r] => r
  | r :: rs => .alt r (alts rs)

/-- `re.search(pattern, data)` succeeds -/
def searchRe (ps : List Re) (s : Str) : Bool := (Re.search (alts ps) s).isSome

/-- `re.search("^{}".format(pattern), data)`, ttp/match/re_.py 5 and 23: the text `^` stands before the first alternative
only -/
def startsRe : List Re → Str → Bool
  | [], _ => true
  | [p], s => !(Re.run p s).isEmpty
  | p :: ps, s => !(Re.run p s).isEmpty || searchRe ps s

/-- `"{}$".format(pattern)`, ttp/match/re_.py 11 and 29: the text `$` stands after the last alternative only -/
def dollar : List Re → List Re
  | [] => [.eos]
  | [p] => [.seq p .eos]
  | p :: ps => p :: dollar ps

/-- `re.search("{}$".format(pattern), data)`, ttp/match/re_.py 11 and 29 -/
def endsRe (ps : List Re) (s : Str) : Bool := searchRe (dollar ps) s

/-- `re.sub(r, repl, s, count=left)` (`none`: no limit): left to right, after an empty match only a match that is not empty is
tried at the same place. Simplification: `repl` has no backslash. -/
def subN (r : Re) (repl : Str) : Str → Nat → Option Nat → Str
  | [], _ + 1, _ => []
  | [], 0, left => if left = some 0 then [] else match Re.run r [] with
    | [] => []
    | _ :: _ => repl
  | _ :: cs, k + 1, left => subN r repl cs k left
  | c :: cs, 0, left =>
    if left = some 0 then c :: subN r repl cs 0 left
    else match Re.run r (c :: cs) with
    | [] => c :: subN r repl cs 0 left
    | h :: _ =>
      if h.1.isEmpty then
        match (Re.run r (c :: cs)).filter (fun h => !h.1.isEmpty) with
        | [] => repl ++ c :: subN r repl cs 0 (left.map (· - 1))
        | h2 :: _ =>
          if left.map (· - 1) = some 0 then repl ++ c :: subN r repl cs 0 (some 0)
          else repl ++ (repl ++ subN r repl cs (h2.1.length - 1) (left.map (· - 2)))
      else repl ++ subN r repl cs (h.1.length - 1) (left.map (· - 1))

/-- the argument `count` of `re.sub`: 0 is no limit -/
def countOf (n : Int) : Option Nat := if n = 0 then none else some n.toNat

/-- `re.sub(r, new, data)` -/
def subAll (r : Re) (new data : Str) : Str := subN r new data 0 none

/-- `resub`, ttp/match/re_.py 40-44 -/
def resub (rx : Str → PyM (List Re)) (vars : Dict Str Val) (data old new : Str) (count : Int) : PyM Str :=
  match Dict.get? vars old with
  | some v => do pure (subN (Re.lits (← reqStr v)) new data 0 (countOf count))
  | none => do pure (subN (alts (← rx old)) new data 0 (countOf count))

/-- every string of the list, ttp/match/re_.py 56-58 and 61-64 -/
def resubEach (rx : Str → PyM (List Re)) (new : Str) : List Val → Str → PyM Str
  | [], data => pure data
  | .str old :: vs, data => do resubEach rx new vs (subAll (alts (← rx old)) new data)
  | _ :: vs, data => resubEach rx new vs data

/-- a dictionary new value -> old value(s), ttp/match/re_.py 59-66; simplification: an integer key raises `TypeError` even
if there is nothing to replace -/
def resubDict (rx : Str → PyM (List Re)) : List (Key × Val) → Str → PyM Str
  | [], data => pure data
  | (.s new, .list olds) :: kvs, data => do resubDict rx kvs (← resubEach rx new olds data)
  | (.s new, .str old) :: kvs, data => do resubDict rx kvs (subAll (alts (← rx old)) new data)
  | (.s _, _) :: kvs, data => resubDict rx kvs data
  | (.i _, _) :: _, _ => throw .typeError

/-- one old value, ttp/match/re_.py 54-70 -/
def resubOne (rx : Str → PyM (List Re)) (vars : Dict Str Val) (new old data : Str) : PyM Str :=
  match Dict.get? vars old with
  | some (.list vs) => resubEach rx new vs data
  | some (.dict kvs) => resubDict rx kvs data
  | some (.str v) => pure (subAll (Re.lits v) new data)
  | some _ => pure data
  | none => do pure (subAll (alts (← rx old)) new data)

/-- the loop over the old values, ttp/match/re_.py 53-70 -/
def resubLoop (rx : Str → PyM (List Re)) (vars : Dict Str Val) (new : Str) : List Str → Str → PyM Str
  | [], data => pure data
  | old :: olds, data => do resubLoop rx vars new olds (← resubOne rx vars new old data)

/-- `resuball`, ttp/match/re_.py 47-71 -/
def resuball (rx : Str → PyM (List Re)) (vars : Dict Str Val) (data : Str) (args : List Str) : PyM Str :=
  match args with
  | new :: old :: olds => resubLoop rx vars new (old :: olds) data
  | olds => resubLoop rx vars [] olds data

/-! ## ttp/match/uptimeparse.py -/

/-- a letter under `re.I`; simplification: ASCII letters only -/
def ci (c : Char) : Re := .cls (.oneOf [c, c.toUpper])

/-- a word under `re.I` -/
def ciWord (w : Str) : Re := Re.seqs (w.map ci)

/-- `x?` -/
def opt (r : Re) : Re := .alt r .eps

/-- `\s*` -/
def sp0 : Re := .star true (.cls .space)

/-- `YEARS`, `MONTHS`: `(?P<name>\d+)\s*(?:units)`, ttp/match/uptimeparse.py 11-12 -/
def natUnit (name : Str) (units : List Re) : Re :=
  .seq (.cap name (Re.plus true (.cls .digit))) (.seq sp0 (alts units))

/-- `WEEKS` to `SECS`: `(?P<name>[\d.]+)\s*(?:units)`, ttp/match/uptimeparse.py 13-17 -/
def dotUnit (name : Str) (units : List Re) : Re :=
  .seq (.cap name (Re.plus true (.cls (.oneOf c!"0123456789.")))) (.seq sp0 (alts units))

/-- `s?` at the end of a unit -/
def optS : Re := opt (ci 's')

/-- `.?` at the end of a unit -/
def optDot : Re := opt (.cls .dot)

/-- the units, ttp/match/uptimeparse.py 11-17 -/
def upYears : Re := natUnit c!"years" [.seq (ci 'y') optS, .seq (ciWord c!"yr") (.seq optS optDot), .seq (ciWord c!"year") optS]
/-- ttp/match/uptimeparse.py 12 -/
def upMonths : Re := natUnit c!"months" [.seq (ciWord c!"mo") (.seq optS optDot), .seq (ciWord c!"mth") (.seq optS optDot), .seq (ciWord c!"month") optS]
/-- ttp/match/uptimeparse.py 13 -/
def upWeeks : Re := dotUnit c!"weeks" [ci 'w', .seq (ciWord c!"wk") optS, .seq (ciWord c!"week") optS]
/-- ttp/match/uptimeparse.py 14 -/
def upDays : Re := dotUnit c!"days" [ci 'd', .seq (ciWord c!"dy") optS, .seq (ciWord c!"day") optS]
/-- ttp/match/uptimeparse.py 15 -/
def upHours : Re := dotUnit c!"hours" [ci 'h', .seq (ciWord c!"hr") optS, .seq (ciWord c!"hour") optS]
/-- ttp/match/uptimeparse.py 16 -/
def upMins : Re := dotUnit c!"mins" [ci 'm', .seq (ciWord c!"min") optS, .seq (ciWord c!"minute") optS]
/-- ttp/match/uptimeparse.py 17 -/
def upSecs : Re := dotUnit c!"secs" [ci 's', .seq (ciWord c!"sec") optS, .seq (ciWord c!"second") optS]

/-- `OPTSEP`, ttp/match/uptimeparse.py 18-21 -/
def optSep (x : Re) : Re := opt (.seq x (.seq sp0 (opt (.seq (.cls (.oneOf [',', '/'])) sp0))))

/-- the compiled format, ttp/match/uptimeparse.py 23-37 -/
def upRe : Re :=
  Re.seqs [sp0, optSep upYears, sp0, optSep upMonths, sp0, optSep upWeeks, sp0, optSep upDays, sp0, optSep upHours, sp0,
    optSep upMins, sp0, opt upSecs, sp0, .eos]

/-- `MULTIPLIERS`, ttp/match/uptimeparse.py 39-49, in the order of the named groups -/
def upMult : List (Str × Int) :=
  [(c!"years", 60 * 60 * 24 * 365), (c!"months", 60 * 60 * 24 * 30), (c!"weeks", 60 * 60 * 24 * 7), (c!"days", 60 * 60 * 24),
    (c!"hours", 60 * 60), (c!"mins", 60), (c!"secs", 1)]

/-- `match.groupdict()` without the groups that did not take part -/
def upGroups (caps : Re.Caps) : List (Str × Str) :=
  upMult.filterMap (fun m => (Dict.get? caps m.1).map (fun v => (m.1, v)))

/-- `uptimeparse`, ttp/match/uptimeparse.py 52-80; `seconds`, `dict` or any other format -/
def uptimeparse (data : Str) (format : Val) : Val :=
  match Re.run upRe data with
  | [] => .str data
  | h :: _ =>
    if (strip h.1).isEmpty then .str data
    else if !(upGroups h.2.2).all (fun kv => isdigitS kv.2) then .str data
    else if format = .str c!"seconds" then
      .int ((upMult.map (fun m => match Dict.get? h.2.2 m.1 with
        | some v => m.2 * (natOfDigits v : Int)
        | none => 0)).sum)
    else if format = .str c!"dict" then .dict ((upGroups h.2.2).map (fun kv => (Key.s kv.1, Val.str kv.2)))
    else .str data

/-! ## gpvlookup -/

/-- the regular expression of `fnmatch.translate`; simplification: a bracket stands for itself -/
def globRe : Str → Re
  | [] => .eps
  | '*' :: cs => .seq (.star true (.cls .anyc)) (globRe cs)
  | '?' :: cs => .seq (.cls .anyc) (globRe cs)
  | c :: cs => .seq (.cls (.lit c)) (globRe cs)

/-- `fnmatch(data, pattern)` -/
def fnmatch (data pattern : Str) : Bool := (Re.run (globRe pattern) data).any (fun h => h.2.1.isEmpty)

/-- the patterns of one key, ttp/match/lookup.py 100 and 108: a string is a sequence of its characters -/
def patternsOf : Val → PyM (List Str)
  | .list xs => allStrs xs
  | .str s => pure (s.map (fun c => [c]))
  | _ => throw .typeError

/-- a key as a value -/
def keyVal : Key → Val
  | .s s => .str s
  | .i n => .int n

/-- first key with a matching pattern, ttp/match/lookup.py 98-105 -/
def gpvFirst (data : Str) : List (Key × Val) → PyM (List Val)
  | [] => pure []
  | (k, ps) :: kvs => do
    if (← patternsOf ps).any (fnmatch data) then pure [keyVal k] else gpvFirst data kvs

/-- all keys, once per matching pattern, ttp/match/lookup.py 107-109 -/
def gpvAll (data : Str) : List (Key × Val) → PyM (List Val)
  | [] => pure []
  | (k, ps) :: kvs => do
    let here := ((← patternsOf ps).filter (fnmatch data)).map (fun _ => keyVal k)
    pure (here ++ (← gpvAll data kvs))

/-- `gpvlookup`, ttp/match/lookup.py 76-120, on a string; simplification: the values are strings or lists of strings -/
def gpvlookup (lookups : Val) (name : Str) (addField rec_ multi : Option Val) (env : Env) (data : Str) :
    PyM (Env × Val × Flag) := do
  match ← lookupPath lookups (lookupNames name) with
  | .dict d => do
    let fnd ← match multi.getD (.bool false) with
      | .bool false => gpvFirst data d
      | .bool true => gpvAll data d
      | _ => pure []
    let env' ← match rec_.getD (.bool false) with
      | .bool false => pure env
      | v => do pure (record (← reqStr v) (.list fnd) env)
    if fnd.isEmpty then pure (env', .str data, .nothing)
    else do
      let r ← found addField (.str data) (.list fnd)
      pure (env', r.1, r.2)
  | _ => pure (env, .str data, .nothing)

/-! ## All functions together -/

/-- What the functions need from outside: macros, lookup tables, attributes of the data, and the functions that are not
modelled (`none`: no such function). -/
structure World where
  macros : Dict Str (Val → PyM MRes)
  lookups : Val
  /-- `getattr(data, name)(*args, **kwargs)`, `none` for `AttributeError` -/
  method : FnCall → Val → PyM (Option Val)
  other : FnCall → Option (Env → Val → PyM (Env × Val × Flag))
  /-- `re.compile`: the top level alternatives of a regular expression -/
  rx : Str → PyM (List Re)
  /-- a field of a format string with attributes, indices, conversion or specification -/
  fmt : Str → List Val → Dict Str Val → PyM Str
  /-- the number of an address text of version 6 -/
  ip6 : Str → Option Nat
  /-- `float(text)` -/
  float : Str → Option Str
  /-- `is_private` of an address of version 4 (the list differs between versions of Python) -/
  priv : Nat → Bool
  /-- what `ip_info` tells of an address or interface of version 6 -/
  info6 : Net.Data → Val
  /-- names and results of the templates of the parser object, and the results of the template of the variable -/
  templates : List (Str × Val)
  results : Val

/-- the flag of a check -/
def chk (b : Bool) : Flag := if b then .yes else .no

/-- a function that is not modelled, or `KeyError`, ttp/ttp.py 2455-2457 -/
def otherCall (W : World) (f : FnCall) (env : Env) (data : Val) : PyM (Env × Val × Flag) :=
  match W.other f with
  | some g => g env data
  | none => throw .keyError

/-- parameters of `lookup`, ttp/match/lookup.py 6 -/
def lookupParams : List Str := [c!"name", c!"template", c!"group", c!"add_field"]

/-- names of the modelled functions that only look at the data and the variables (files of ttp/match/) -/
def pureNames : List Str :=
  [c!"exclude", c!"equal", c!"notequal", c!"contains", c!"isdigit", c!"notdigit", c!"greaterthan", c!"lessthan",
    c!"join", c!"append", c!"prepend", c!"replaceall", c!"truncate", c!"to_str", c!"to_list", c!"to_int",
    c!"to_unicode", c!"unrange", c!"to_cidr", c!"item", c!"mac_eui", c!"copy", c!"let", c!"set",
    c!"macro", c!"rlookup", c!"void", c!"raise", c!"joinmatches", c!"lookup", c!"startswith_re", c!"endswith_re",
    c!"contains_re", c!"notstartswith_re", c!"notendswith_re", c!"exclude_re", c!"resub", c!"resuball", c!"uptimeparse", c!"sformat",
    c!"is_ip", c!"cidr_match", c!"ip_info", c!"to_float", c!"print"]

/-- data given to a function of `re` -/
def textArg : Val → PyM Str
  | .str s => pure s
  | _ => throw .typeError

/-- the checks of ttp/match/re_.py 4-37: one regular expression -/
def reCheck (W : World) (f : FnCall) (data : Val) (test : List Re → Str → Bool) : PyM (Val × Flag) := do
  let as ← bindArgs [c!"pattern"] f
  let ps ← W.rx (← reqStr (← req (as.getD 0 none)))
  pure (data, chk (test ps (← textArg data)))

/-- the texts among the arguments -/
def textsOf (vs : List Val) : List Str := vs.filterMap (fun v => match v with
  | .str s => some s
  | _ => none)

/-- `is_ip`, ttp/match/ip.py 29-34: every error gives `False`; data that are no text give one -/
def isIp (W : World) (args : List Val) : Val → Bool
  | .str s => (Ip.toIp W.ip6 (textsOf args) s).isSome
  | _ => false

/-- `to_net(prefix)`, ttp/match/ip.py 133; simplification: a prefix that is no text is no network -/
def netArg (W : World) : Val → PyM Net.Network
  | .str s =>
    match Ip.toNet W.ip6 s with
    | some n => pure n
    | none => throw .valueError
  | _ => throw .valueError

/-- `cidr_match`, ttp/match/ip.py 121-164: a text that is no address is neither accepted nor rejected -/
def cidrFn (W : World) (vars : Dict Str Val) (data pref : Val) : PyM Flag := do
  match data with
  | .str s =>
    match Ip.toIp W.ip6 [] s with
    | none => pure .nothing
    | some d => do
      match Net.cidrMatch d (← netArg W (varOr vars pref)) with
      | some b => pure (chk b)
      | none => pure .nothing
  | _ => do
    let _ ← netArg W (varOr vars pref)
    pure .nothing

/-- `ip_info`, ttp/match/ip.py 63-118: a text that is no address is kept, as are data that are no text -/
def ipInfo (W : World) (args : List Val) : Val → Val
  | .str s =>
    match Ip.toIp W.ip6 (textsOf args) s with
    | some d => Ip.info W.priv W.info6 d
    | none => .str s
  | v => v

/-- `to_float`, ttp/match/to.py 26-33: `float` of a text that is no number raises `ValueError`, which is not caught -/
def toFloat (W : World) : Val → PyM Val
  | .str s =>
    match W.float s with
    | some t => pure (.flt t)
    | none => throw .valueError
  | .int n =>
    match W.float (intStr n) with
    | some t => pure (.flt t)
    | none => throw .valueError
  | .bool b => pure (.flt (if b then c!"1.0" else c!"0.0"))
  | v => pure v

/-- `is_ip`, `cidr_match`, `ip_info`, `to_float` and `print` (what is printed is left out), ttp/match/ip.py, to.py, string.py 89-91 -/
def callIp (W : World) (f : FnCall) (env : Env) (data : Val) : PyM (Val × Flag) :=
  if f.name = c!"is_ip" then do
    if !f.kwargs.isEmpty then throw .typeError
    pure (data, chk (isIp W f.args data))
  else if f.name = c!"cidr_match" then do
    let as ← bindArgs [c!"prefix"] f
    pure (data, ← cidrFn W env.vars data (← req (as.getD 0 none)))
  else if f.name = c!"ip_info" then do
    if !f.kwargs.isEmpty then throw .typeError
    pure (ipInfo W f.args data, .nothing)
  else if f.name = c!"to_float" then do
    let _ ← bindArgs [] f
    pure (← toFloat W data, .nothing)
  else if f.name = c!"print" then do
    let _ ← bindArgs [] f
    pure (data, .nothing)
  else throw .keyError

/-- the functions that use regular expressions: ttp/match/re_.py, ttp/match/uptimeparse.py; simplification: the pattern is a
string -/
def callRe (W : World) (f : FnCall) (env : Env) (data : Val) : PyM (Val × Flag) :=
  if f.name = c!"startswith_re" then reCheck W f data startsRe
  else if f.name = c!"endswith_re" then reCheck W f data endsRe
  else if f.name = c!"contains_re" then reCheck W f data searchRe
  else if f.name = c!"notstartswith_re" then reCheck W f data (fun ps s => !startsRe ps s)
  else if f.name = c!"notendswith_re" then reCheck W f data (fun ps s => !endsRe ps s)
  else if f.name = c!"exclude_re" then reCheck W f data (fun ps s => !searchRe ps s)
  else if f.name = c!"resub" then do
    let as ← bindArgs [c!"old", c!"new", c!"count"] f
    let old ← reqStr (← req (as.getD 0 none))
    let new ← reqStr (← req (as.getD 1 none))
    match (as.getD 2 none).getD (.int 1) with
    | .int n => pure (.str (← resub W.rx env.vars (← textArg data) old new n), .nothing)
    | _ => throw .typeError
  else if f.name = c!"resuball" then do
    if !f.kwargs.isEmpty then throw .typeError
    pure (.str (← resuball W.rx env.vars (← textArg data) (← allStrs f.args)), .nothing)
  else if f.name = c!"uptimeparse" then do
    let as ← bindArgs [c!"format"] f
    pure (uptimeparse (← textArg data) ((as.getD 0 none).getD (.str c!"seconds")), .nothing)
  else callIp W f env data

/-- `_ttp_["match"][func_name](data, *args, **kwargs)`, ttp/ttp.py 2455-2457, for the functions of ttp/match/ that change no
variables, among them ttp/match/copy_.py 6-7, let.py 1-6, void.py 1-3, raise_.py 4-5, joinmatches.py 1-2, macro.py 4-16. Arguments that are not
strings where the code needs strings raise `TypeError`. -/
def callPure (W : World) (f : FnCall) (env : Env) (data : Val) : PyM (Val × Flag) :=
  if f.name = c!"exclude" then do
    let as ← bindArgs [c!"pattern"] f
    pure (data, chk (← exclude data (← req (as.getD 0 none))))
  else if f.name = c!"equal" then do
    let as ← bindArgs [c!"value"] f
    pure (data, chk (pyEq data (← req (as.getD 0 none))))
  else if f.name = c!"notequal" then do
    let as ← bindArgs [c!"value"] f
    pure (data, chk (!pyEq data (← req (as.getD 0 none))))
  else if f.name = c!"contains" then do
    if !f.kwargs.isEmpty then throw .typeError
    pure (data, chk (← containsAny data f.args))
  else if f.name = c!"sformat" then do
    let as ← bindArgs [c!"string"] f
    pure (.str (← Fmt.format W.fmt (← dataStr (← req (as.getD 0 none))) [data] []), .nothing)
  else if f.name = c!"isdigit" then do
    let _ ← bindArgs [] f
    pure (data, chk (isdigit (← dataStr data)))
  else if f.name = c!"notdigit" then do
    let _ ← bindArgs [] f
    pure (data, chk (notdigit (← dataStr data)))
  else if f.name = c!"greaterthan" then do
    let as ← bindArgs [c!"value"] f
    pure (data, chk (greaterthan (← dataStr data) (← dataStr (← req (as.getD 0 none)))))
  else if f.name = c!"lessthan" then do
    let as ← bindArgs [c!"value"] f
    pure (data, chk (lessthan (← dataStr data) (← dataStr (← req (as.getD 0 none)))))
  else if f.name = c!"join" then do
    let as ← bindArgs [c!"char"] f
    pure (← joinFn data (← req (as.getD 0 none)), .nothing)
  else if f.name = c!"append" then do
    let as ← bindArgs [c!"char"] f
    pure (← append env data (← req (as.getD 0 none)), .nothing)
  else if f.name = c!"prepend" then do
    let as ← bindArgs [c!"char"] f
    pure (← prepend env data (← req (as.getD 0 none)), .nothing)
  else if f.name = c!"replaceall" then do
    if !f.kwargs.isEmpty then throw .typeError
    pure (.str (← replaceall env.vars (← dataStr data) (← allStrs f.args)), .nothing)
  else if f.name = c!"truncate" then do
    let as ← bindArgs [c!"truncate"] f
    match ← req (as.getD 0 none) with
    | .int n => pure (.str (truncate (← dataStr data) n), .nothing)
    | _ => throw .typeError
  else if f.name = c!"to_str" then do
    let _ ← bindArgs [] f
    pure (.str (pyStr data), .nothing)
  else if f.name = c!"to_list" then do
    let _ ← bindArgs [] f
    pure (.list [data], .nothing)
  else if f.name = c!"to_int" then do
    let _ ← bindArgs [] f
    pure (← toInt data, .nothing)
  else if f.name = c!"to_unicode" then do
    let _ ← bindArgs [] f
    pure (data, .nothing)
  else if f.name = c!"unrange" then do
    let as ← bindArgs [c!"rangechar", c!"joinchar"] f
    pure (.str (← unrange (← dataStr data) (← reqStr (← req (as.getD 0 none))) (← reqStr (← req (as.getD 1 none)))), .nothing)
  else if f.name = c!"to_cidr" then do
    let _ ← bindArgs [] f
    pure (match data with
      | .str s => toCidr s
      | v => v, .nothing)
  else if f.name = c!"item" then do
    let as ← bindArgs [c!"item_index"] f
    match ← toInt (← req (as.getD 0 none)) with
    | .int i =>
      match data with
      | .str s => do pure (((← item s i).map (fun c => Val.str [c])).getD .none, .nothing)
      | .list xs => do pure ((← item xs i).getD .none, .nothing)
      | _ => throw .typeError
    | _ => throw .valueError
  else if f.name = c!"mac_eui" then do
    let _ ← bindArgs [] f
    pure (match data with
      | .str s => .str (macEui s)
      | v => if isalnumS (lower ((pyStr v).filter (fun c => !isMacSep c))) then .str (macEui (pyStr v)) else v, .nothing)
  else if f.name = c!"copy" then do
    let as ← bindArgs [c!"name"] f
    pure (data, .newField [(← asKey (← req (as.getD 0 none)), data)])
  else if f.name = c!"let" then do
    let as ← bindArgs [c!"name_or_value", c!"var_value"] f
    let n ← req (as.getD 0 none)
    match as.getD 1 none with
    | none => pure (n, .nothing)
    | some v =>
      if v = .str c!"__Undefined_Var_Value__" then pure (n, .nothing)
      else pure (data, .newField [(← asKey n, v)])
  else if f.name = c!"set" then do
    let as ← bindArgs [c!"value", c!"match_line"] f
    let v ← req (as.getD 0 none)
    let line ← reqStr (← req (as.getD 1 none))
    let r := setFn env (← dataStr data) v line
    pure r
  else if f.name = c!"macro" then do
    let as ← bindArgs [c!"macro_name"] f
    match Dict.get? W.macros (← reqStr (← req (as.getD 0 none))) with
    | some m => do
      let r := macroRes data (← m data)
      pure r
    | none => pure (data, .nothing)
  else if f.name = c!"rlookup" then do
    let as ← bindArgs [c!"name", c!"add_field"] f
    let r ← rlookup W.lookups (← dataStr (← req (as.getD 0 none))) (as.getD 1 none) data
    pure r
  else if f.name = c!"void" then do
    let _ ← bindArgs [] f
    pure (data, .no)
  else if f.name = c!"raise" then do
    let _ ← bindArgs [c!"message"] f
    throw .runtimeError
  else if f.name = c!"joinmatches" then pure (data, .nothing)
  else if f.name = c!"lookup" then do
    let as ← bindArgs lookupParams f
    if (as.getD 0 none).any Val.truthy then lookup W.lookups (← dataStr (← req (as.getD 0 none))) (as.getD 3 none) data
    else pure (data, .nothing)
  else callRe W f env data

/-- `lookup(..., template=...)` and `lookup(..., group=...)` look into results of other templates or groups
(ttp/match/lookup.py 14-33) -/
def lookupElsewhere (f : FnCall) : Bool :=
  f.name = c!"lookup" && (match bindArgs lookupParams f with
    | .ok as => !(as.getD 0 none).any Val.truthy && ((as.getD 1 none).any Val.truthy || (as.getD 2 none).any Val.truthy)
    | .error _ => false)

/-- `lookup` with `template` or `group`, ttp/match/lookup.py 14-48 -/
def lookupOther (W : World) (f : FnCall) (data : Val) : PyM (Val × Flag) := do
  let as ← bindArgs lookupParams f
  let src ← if (as.getD 1 none).any Val.truthy then do tplSource W.templates (lookupNames (← dataStr (← req (as.getD 1 none))))
    else do grpSource W.results (lookupNames (← dataStr (← req (as.getD 2 none))))
  lookupIn src.1 src.2 (as.getD 3 none) data

/-- `_ttp_["match"][func_name](data, *args, **kwargs)`, ttp/ttp.py 2455-2457; `KeyError` for an unknown name -/
def call (W : World) (f : FnCall) (env : Env) (data : Val) : PyM (Env × Val × Flag) :=
  if f.name = c!"count" then do
    let as ← bindArgs [c!"var", c!"globvar"] f
    pure (← count (as.getD 0 none) (as.getD 1 none) env, data, .nothing)
  else if f.name = c!"record" then do
    let as ← bindArgs [c!"record"] f
    pure (record (← reqStr (← req (as.getD 0 none))) data env, data, .nothing)
  else if f.name = c!"gpvlookup" then do
    let as ← bindArgs [c!"name", c!"add_field", c!"record", c!"multimatch"] f
    gpvlookup W.lookups (← dataStr (← req (as.getD 0 none))) (as.getD 1 none) (as.getD 2 none) (as.getD 3 none) env (← textArg data)
  else if pureNames.contains f.name && !lookupElsewhere f then do
    let r ← callPure W f env data
    pure (env, r.1, r.2)
  else if lookupElsewhere f then do
    let r ← lookupOther W f data
    pure (env, r.1, r.2)
  else otherCall W f env data

/-- a method of the data after `KeyError`, ttp/ttp.py 2458-2472 -/
def callMethod (W : World) (f : FnCall) (env : Env) (data : Val) : PyM (Env × Val × Flag) := do
  match ← W.method f data with
  | none => pure (env, data, .nothing)
  | some (.bool b) => pure (env, data, chk b)
  | some v => pure (env, v, .nothing)

/-- One function of a variable, ttp/ttp.py 2454-2472: a `KeyError`, also one raised inside the function, leads to a method of
the data with that name. -/
def builtin (W : World) : MatchFns := fun f env data =>
  match call W f env data with
  | .error .keyError => callMethod W f env data
  | r => r

end MatchFn
end TTP
