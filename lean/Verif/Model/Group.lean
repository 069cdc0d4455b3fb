import Verif.Model.Match
/-!
# Group functions

Model of the functions of `ttp/group/` that `processgrp` runs on the record of a group. Not modelled: `str_to_unicode` (Python 2 only), which is
reached through `World.other`. The validator of the Cerberus library is a parameter.
-/

namespace TTP
open Py

namespace GroupFn
open MatchFn

/-- `data[key]` -/
def getItem (data : Val) (key : Val) : PyM Val :=
  match data with
  | .dict d => do
    match Dict.get? d (← asKey key) with
    | some v => pure v
    | none => throw .keyError
  | _ => throw .typeError

/-- `DEFAULTS[var]` if `var in DEFAULTS` -/
def defaultOf (defaults : Dict Key Val) (var : Val) : PyM (Option Val) := do pure (Dict.get? defaults (← asKey var))

/-- `contains`, ttp/group/contains.py 1-9: the flag -/
def containsFn (defaults : Dict Key Val) (data : Val) : List Val → PyM Bool
  | [] => pure false
  | var :: vars => do
    if ← inData var data then
      match ← defaultOf defaults var with
      | some d => do pure (!pyEq d (← getItem data var))
      | none => pure true
    else containsFn defaults data vars

/-- `containsall`, ttp/group/containsall.py 1-10: `false` is the flag `False`, `true` the flag `None` -/
def containsall (defaults : Dict Key Val) (data : Val) : List Val → PyM Bool
  | [] => pure true
  | var :: vars => do
    if ← inData var data then
      match ← defaultOf defaults var with
      | some d => do if pyEq d (← getItem data var) then pure false else containsall defaults data vars
      | none => containsall defaults data vars
    else pure false

/-- `exclude`, ttp/group/exclude.py 1-8: the flag -/
def excludeFn (defaults : Dict Key Val) (data : Val) : List Val → PyM Bool
  | [] => pure true
  | var :: vars => do
    if ← inData var data then
      match ← defaultOf defaults var with
      | some _ => excludeFn defaults data vars
      | none => pure false
    else excludeFn defaults data vars

/-- the list `found_vars`, ttp/group/excludeall.py 3-8 -/
def foundVars (defaults : Dict Key Val) (data : Val) : List Val → PyM (List Val)
  | [] => pure []
  | var :: vars => do
    if ← inData var data then
      match ← defaultOf defaults var with
      | some _ => foundVars defaults data vars
      | none => do pure (var :: (← foundVars defaults data vars))
    else foundVars defaults data vars

/-- `excludeall`, ttp/group/excludeall.py 1-12: the flag -/
def excludeall (defaults : Dict Key Val) (data : Val) (args : List Val) : PyM Bool := do
  pure (!decide (args = (← foundVars defaults data args)))

/-- `data.get(key)` of a dictionary -/
def dictGet (data : Val) (key : Val) : PyM (Option Val) :=
  match data with
  | .dict d => do pure (Dict.get? d (← asKey key))
  | _ => throw .attributeError

/-- `contains_val`, ttp/group/contains_val.py 1-9: `false` is the flag `False`, `true` the flag `None` -/
def containsVal (vars : Dict Str Val) (data key value : Val) : PyM Bool := do
  inData (varOr vars value) ((← dictGet data key).getD (.str []))

/-- `equal`, ttp/group/equal.py 1-9: `false` is the flag `False`, `true` the flag `None` -/
def equal (vars : Dict Str Val) (data key value : Val) : PyM Bool := do
  pure (pyEq ((← dictGet data key).getD .none) (varOr vars value))

/-- `exclude_val`, ttp/group/exclude_val.py 1-13: the flag -/
def excludeVal (vars : Dict Str Val) (data key value : Val) : PyM Bool :=
  match getItem data key with
  | .ok v => .ok (!pyEq v (varOr vars value))
  | .error .keyError => .ok true
  | .error e => .error e

/-- `del`, ttp/group/delete.py 4-8; data that are no dictionary have no `pop` with a name -/
def delete (data : Val) : List Val → PyM Val
  | [] => pure data
  | key :: keys => do
    if ← inData key data then
      match data with
      | .dict d => delete (.dict (Dict.erase d (← asKey key))) keys
      | .list _ => throw .typeError
      | _ => throw .attributeError
    else delete data keys

/-! ## expand -/

/-- one key of `expand`, ttp/group/expand.py 14-22: `ref` is the dictionary reached so far. The last key is not stored when
`ref` is no dictionary; going deeper there raises `AttributeError`. -/
def expandAt (value : Val) : List Str → Val → PyM Val
  | [], ref => pure ref
  | [k], .dict d => pure (.dict (Dict.set d (.s k) value))
  | [_], v => pure v
  | k :: k2 :: ks, .dict d => do
    let sub ← expandAt value (k2 :: ks) ((Dict.get? d (.s k)).getD (.dict []))
    pure (.dict (Dict.set d (.s k) sub))
  | _ :: _ :: _, _ => throw .attributeError

/-- the loop over the items, ttp/group/expand.py 11-22 -/
def expandLoop : List (Key × Val) → Val → PyM Val
  | [], ret => pure ret
  | (.s k, v) :: kvs, ret => do expandLoop kvs (← expandAt v (split ['.'] k) ret)
  | (.i _, _) :: _, _ => throw .attributeError

/-- `expand`, ttp/group/expand.py 1-24 -/
def expand : Val → PyM Val
  | .dict d => expandLoop d (.dict [])
  | v => pure v

/-! ## Functions that change the record -/

/-- `items2dict`, ttp/group/items2dict.py 1-12: `none` is the flag `False`. The value is taken out first, then the key. -/
def items2dict (data keyName valueName : Val) : PyM (Option Val) := do
  if !(← inData keyName data) || !(← inData valueName data) then pure none
  else match data with
    | .dict d =>
      match Dict.get? d (← asKey valueName) with
      | none => throw .keyError
      | some v =>
        let d1 := Dict.erase d (← asKey valueName)
        match Dict.get? d1 (← asKey keyName) with
        | none => throw .keyError
        | some k => do pure (some (.dict (Dict.set (Dict.erase d1 (← asKey keyName)) (← asKey k) v)))
    | .list _ => throw .typeError
    | _ => throw .attributeError

/-- What `int()` and `float()` do with floats: floats are opaque texts, `ofStr` is `float()` of a string, `trunc` is `int()` of
a float (`none`: an exception). -/
structure Floats where
  ofStr : Str → Option Str
  trunc : Str → Option Int

/-- best effort conversion `int`, `float`, or nothing, ttp/group/to_converters.py 26-32 and 38-44 -/
def toNum (F : Floats) : Val → Val
  | .str s =>
    match intOfStr s with
    | some n => .int n
    | none =>
      match F.ofStr s with
      | some t => .flt t
      | none => .str s
  | .flt t =>
    match F.trunc t with
    | some n => .int n
    | none => .flt t
  | .bool b => .int (if b then 1 else 0)
  | v => v

/-- the value of one key, with `intlist`, ttp/group/to_converters.py 25-46 -/
def toIntVal (F : Floats) (intlist : Bool) (v : Val) : Val :=
  match toNum F v with
  | .list xs => if intlist then .list (xs.map (toNum F)) else .list xs
  | w => w

/-- `to_int`, ttp/group/to_converters.py 15-48: the loop over the keys -/
def toIntLoop (F : Floats) (intlist : Bool) : List Key → Dict Key Val → Dict Key Val
  | [], d => d
  | k :: ks, d =>
    match Dict.get? d k with
    | none => toIntLoop F intlist ks d
    | some v => toIntLoop F intlist ks (Dict.set d k (toIntVal F intlist v))

/-- all keys -/
def asKeys : List Val → PyM (List Key)
  | [] => pure []
  | v :: vs => do pure ((← asKey v) :: (← asKeys vs))

/-- `to_int`, ttp/group/to_converters.py 15-48 -/
def toInt (F : Floats) (data : Val) (keys : List Val) (intlist : Bool) : PyM Val :=
  match data with
  | .dict d => do
    let ks ← asKeys keys
    pure (.dict (toIntLoop F intlist (if ks.isEmpty then Dict.keys d else ks) d))
  | _ => throw .attributeError

/-- `record`, ttp/group/record.py 1-11 -/
def record (ms : MS) (data source : Val) (target : Option Val) : PyM MS := do
  if ← inData source data then
    let v ← getItem data source
    let t ← reqStr (match target with
      | some t => if t = .str c!"_use_source_" then source else t
      | none => source)
    pure { ms with vars := Dict.set ms.vars t v, gvars := Dict.set ms.gvars t v }
  else pure ms

/-- the value of `set`, ttp/group/set_.py 7-14 -/
def setValue (ms : MS) (source : Val) (dflt : Option Val) : Val :=
  let fallback : Val := match dflt with
    | some d => if d = .str c!"_no_default_value_" then source else d
    | none => source
  match source with
  | .str s =>
    match Dict.get? ms.vars s with
    | some v => v
    | none =>
      match Dict.get? ms.gvars s with
      | some v => v
      | none => fallback
  | _ => fallback

/-- `set`, ttp/group/set_.py 4-19 -/
def setFn (ms : MS) (data source : Val) (target dflt : Option Val) : PyM Val :=
  match data with
  | .dict d => do
    let t := match target with
      | some t => if t = .str c!"_use_source_" then source else t
      | none => source
    pure (.dict (Dict.set d (← asKey t) (setValue ms source dflt)))
  | _ => throw .attributeError

/-- the macros in order, ttp/group/macro.py 6-15: new data and whether the record is kept; results equal to `True` or `None`
keep the data (`res in [True, None]` compares by value, so the number 1 counts as `True`) -/
def macroLoop (macros : Dict Str (Val → PyM MRes)) : List Str → Val → PyM (Val × Bool)
  | [], data => pure (data, true)
  | m :: ms, data =>
    match Dict.get? macros m with
    | none => macroLoop macros ms data
    | some f => do
      match ← f data with
      | .val (.bool false) => pure (data, false)
      | .val v => if pyEq v (.bool true) || v = .none then macroLoop macros ms data else macroLoop macros ms v
      | .tup vs => macroLoop macros ms (.list vs)

/-- names of macros, ttp/group/macro.py 4 -/
def macroNames (args : List Str) : List Str := args.flatMap (fun a => (split [','] a).map strip)

/-- what `lookup` does with the found value, ttp/group/lookup.py 61-74 -/
def lookupUse (data : Dict Key Val) (key : Val) (found : Val) (addField replace update : Val) : PyM (Dict Key Val) :=
  if addField.truthy then
    match asKey addField with
    | .ok k => pure (Dict.set data k found)
    | .error _ => pure data
  else match update, found with
    | .bool true, .dict f => pure (Dict.update data f)
    | _, _ => if replace.truthy then do pure (Dict.set data (← asKey key) found) else pure data

/-- `lookup` in the data `src` below the names `path`, ttp/group/lookup.py 51-74 -/
def lookupFrom (src : Val) (path : List Str) (data key addField replace update : Val) : PyM Val := do
  let table ← lookupPath src path
  match data with
  | .dict d =>
    match table with
    | .dict t =>
      match Dict.get? d (← asKey key) with
      | none => pure (.dict d)
      | some v =>
        match Dict.get? t (← asKey v) with
        | none => pure (.dict d)
        | some found => do pure (.dict (← lookupUse d key found addField replace update))
    | _ => do pure (.dict (← lookupUse d key .none addField replace update))
  | _ => throw .typeError

/-- `lookup` with `name`, ttp/group/lookup.py 19-21, 51-74 -/
def lookup (lookups : Val) (name : Str) (data key addField replace update : Val) : PyM Val :=
  lookupFrom lookups (lookupNames name) data key addField replace update

/-- the data of `lookup(group=...)` and the path in them, ttp/group/lookup.py 35-47: the results of the same input so far, else those of earlier
inputs. Simplification: the group has no outputs of its own (with them, `main_results` are not the results of the group). -/
def groupSource (ms : MS) (results : Val) : List Str → PyM (Val × List Str)
  | [] => throw .indexError
  | p :: rest => do
    match ← grpFind p [ms.results] with
    | some v => pure (v, rest)
    | none => grpSource results (p :: rest)

/-- `"{}*".format(x.rstrip("*"))` unless there is exactly one asterisk, ttp/group/itemize.py 6-7, 18-19 -/
def oneStar (x : Str) : Str :=
  if endsWith x c!"**" || !endsWith x c!"*" then rstripP (· == '*') x ++ c!"*" else x

/-- the last path item gets one asterisk; an empty path raises `IndexError` -/
def oneStarPath (path : List Str) : PyM (List Str) :=
  match path.getLast? with
  | none => throw .indexError
  | some x => pure (path.dropLast ++ [oneStar x])

/-- `dyn_path_cache.update(data)`, ttp/group/itemize.py 10, 15; integer keys cannot be names of placeholders and are left
out -/
def cacheUpdate (cache : Dict Str Val) (d : Dict Key Val) : Dict Str Val :=
  d.foldl (fun c kv => match kv.1 with
    | .s k => Dict.set c k kv.2
    | .i _ => c) cache

/-- `itemize`, ttp/group/itemize.py 1-28: new state, data and flag; simplification: a path that is not a string is ignored -/
def itemize (toInt : Bool) (ms : MS) (data key : Val) (path : Option Val) : PyM (MS × Val × Option Bool) :=
  match data with
  | .dict d => do
    let k ← asKey key
    match Dict.get? d k with
    | none => pure (ms, data, some false)
    | some v =>
      match path with
      | some (.str (c :: cs)) => do
        let p ← oneStarPath ((split ['.'] (c :: cs)).map strip)
        let (cache, res, items) ← formPath ms.vars p (cacheUpdate ms.dynCache d) data
        match items, res with
        | some its, .dict d2 =>
          match Dict.get? d2 k with
          | none => throw .keyError
          | some w => do
            let r ← save toInt ms.record.merge w its ms.results
            pure ({ ms with dynCache := cache, results := r }, res, none)
        | _, _ => throw .typeError
      | _ => do
        let p ← oneStarPath ms.record.path
        let ms1 := { ms with dynCache := cacheUpdate ms.dynCache d }
        let rec1 := { ms.record with path := p }
        pure ({ ms1 with record := rec1 }, v, none)
  | _ => throw .typeError

/-! ## All functions together -/

/-- `string.format(**data)` stored in the record, ttp/group/sformat.py 10-21: after a `KeyError` once more with the variables as well, after
another one nothing is stored -/
def sformat (fmt : Str → List Val → Dict Str Val → PyM Str) (ms : MS) (data string field : Val) : PyM Val :=
  match data with
  | .dict d => do
    let s ← MatchFn.dataStr string
    let kw ← Fmt.kwargsOf d
    match Fmt.format fmt s [] kw with
    | .ok t => pure (.dict (Dict.set d (← asKey field) (.str t)))
    | .error .keyError =>
      match Fmt.format fmt s [] (Dict.update (Dict.update ms.gvars ms.vars) kw) with
      | .ok t => pure (.dict (Dict.set d (← asKey field) (.str t)))
      | .error .keyError => pure data
      | .error e => throw e
    | .error e => throw e
  | _ => throw .typeError

/-- What the functions need from outside: macros, lookup tables, the conversions of floats, the option `dynamic_path_key_to_int`, and the
functions that are not modelled (`none`: no such function); names and results of the templates, results of the template of the group; the number
of an address text of version 6; address objects as values; the validator: a schema, the option `allow_unknown` and a document give the verdict
and the errors. -/
structure World where
  macros : Dict Str (Val → PyM MRes)
  lookups : Val
  floats : Floats
  toInt : Bool
  other : FnCall → Option (MS → Val → PyM (MS × Val × Option Bool))
  /-- a field of a format string with attributes, indices, conversion or specification -/
  fmt : Str → List Val → Dict Str Val → PyM Str
  templates : List (Str × Val)
  results : Val
  ip6 : Str → Option Nat
  ipVal : Net.Data → Val
  validator : Val → Val → Val → PyM (Bool × Val)

/-- `data[key] = value` -/
def setItem (data key value : Val) : PyM Val :=
  match data with
  | .dict d => do pure (.dict (Dict.set d (← asKey key) value))
  | _ => throw .typeError

/-- the address object in the record, ttp/group/to_ip.py 6-10: a text that is no address leaves the data -/
def putIp (W : World) (data ipKey : Val) (s : Str) : PyM Val :=
  match Ip.toIp W.ip6 [] s with
  | some x => setItem data ipKey (W.ipVal x)
  | none => pure data

/-- `to_ip`, ttp/group/to_ip.py 1-11 -/
def toIpFn (W : World) (data ipKey maskKey : Val) : PyM Val := do
  let a ← inData ipKey data
  let b ← inData maskKey data
  if a && b then do
    let ip ← getItem data ipKey
    let m ← getItem data maskKey
    putIp W data ipKey (pyStr ip ++ '/' :: pyStr m)
  else pure data

/-- `cerberus` when there is a schema, ttp/group/validate_cerberus.py 35-47: data and flag -/
def cerberusRun (W : World) (schema allow addErrors data : Val) : PyM (Val × Option Bool) := do
  let r ← W.validator schema allow data
  if r.1 then pure (data, some true)
  else if addErrors.truthy then do pure (← setItem data (.str c!"validation_errors") r.2, none)
  else pure (data, some false)

/-- the schema: a template variable, ttp/group/validate_cerberus.py 30-33 and 71-74; `none` if it is not there or empty -/
def schemaOf (vars : Dict Str Val) (name : Str) : Option Val :=
  match Dict.get? vars name with
  | some v => if v.truthy then some v else none
  | none => none

/-- `cerberus`, ttp/group/validate_cerberus.py 23-47; the library is installed -/
def cerberus (W : World) (ms : MS) (data : Val) (schema : Str) (allow addErrors : Val) : PyM (Val × Option Bool) :=
  match schemaOf ms.vars schema with
  | none => pure (data, none)
  | some sc => cerberusRun W sc allow addErrors data

/-- `info` of `validate`, ttp/group/validate_cerberus.py 80-81 -/
def addInfo (W : World) (ms : MS) (data info : Val) : PyM Val :=
  if info.truthy then sformat W.fmt ms data info (.str c!"info") else pure data

/-- `errors` of `validate`, ttp/group/validate_cerberus.py 82-83 -/
def addErrs (data errors errs : Val) : PyM Val := if errors.truthy then setItem data errors errs else pure data

/-- `validate` when there is a schema, ttp/group/validate_cerberus.py 75-84 -/
def validateRun (W : World) (ms : MS) (data sc result info errors allow : Val) : PyM Val := do
  let r ← W.validator sc allow data
  let d1 ← setItem data result (.bool r.1)
  let d2 ← addInfo W ms d1 info
  addErrs d2 errors r.2

/-- `validate`, ttp/group/validate_cerberus.py 50-84; the library is installed -/
def validate (W : World) (ms : MS) (data : Val) (schema : Str) (result info errors allow : Val) : PyM Val :=
  match schemaOf ms.vars schema with
  | none => pure data
  | some sc => validateRun W ms data sc result info errors allow

/-- functions that are checks: the flag `False` rejects the record -/
def checkNames : List Str :=
  [c!"contains", c!"containsall", c!"exclude", c!"excludeall", c!"contains_val", c!"exclude_val", c!"equal", c!"void"]

/-- result of a check; files of ttp/group/ with these names -/
def callCheck (f : FnCall) (ms : MS) (data : Val) : PyM Bool :=
  if f.name = c!"contains" then containsFn ms.record.defaults data f.args
  else if f.name = c!"containsall" then containsall ms.record.defaults data f.args
  else if f.name = c!"exclude" then excludeFn ms.record.defaults data f.args
  else if f.name = c!"excludeall" then excludeall ms.record.defaults data f.args
  else if f.name = c!"contains_val" then do
    let as ← bindArgs [c!"key", c!"value"] f
    containsVal ms.vars data (← req (as.getD 0 none)) (← req (as.getD 1 none))
  else if f.name = c!"exclude_val" then do
    let as ← bindArgs [c!"key", c!"value"] f
    excludeVal ms.vars data (← req (as.getD 0 none)) (← req (as.getD 1 none))
  else if f.name = c!"equal" then do
    let as ← bindArgs [c!"key", c!"value"] f
    equal ms.vars data (← req (as.getD 0 none)) (← req (as.getD 1 none))
  else pure false

/-- functions that change the data only -/
def dataNames : List Str := [c!"del", c!"expand", c!"items2dict", c!"to_int", c!"set", c!"macro"]

/-- result of a function that changes the data: the new data, and whether the record is kept; files of ttp/group/ -/
def callData (W : World) (f : FnCall) (ms : MS) (data : Val) : PyM (Val × Bool) :=
  if f.name = c!"del" then do pure (← delete data f.args, true)
  else if f.name = c!"expand" then do pure (← expand data, true)
  else if f.name = c!"items2dict" then do
    let as ← bindArgs [c!"key_name", c!"value_name"] f
    match ← items2dict data (← req (as.getD 0 none)) (← req (as.getD 1 none)) with
    | some v => pure (v, true)
    | none => pure (data, false)
  else if f.name = c!"to_int" then do
    pure (← toInt W.floats data f.args (Dict.get? f.kwargs c!"intlist" = some (.bool true)), true)
  else if f.name = c!"set" then do
    let as ← bindArgs [c!"source", c!"target", c!"default"] f
    pure (← setFn ms data (← req (as.getD 0 none)) (as.getD 1 none) (as.getD 2 none), true)
  else do macroLoop W.macros (macroNames (← allStrs f.args)) data

/-- parameters of `lookup`, ttp/group/lookup.py 6-15 -/
def lookupParams : List Str := [c!"key", c!"name", c!"template", c!"group", c!"add_field", c!"replace", c!"update"]

/-- a function that is not modelled, or `KeyError` -/
def otherCall (W : World) (f : FnCall) (ms : MS) (data : Val) : PyM (MS × Val × Option Bool) :=
  match W.other f with
  | some g => g ms data
  | none => throw .keyError

/-- where `lookup` looks without a name, ttp/group/lookup.py 22-47 -/
def elsewhere (W : World) (ms : MS) (template group : Option Val) : PyM (Val × List Str) :=
  if template.any Val.truthy then do tplSource W.templates (lookupNames (← dataStr (← req template)))
  else do groupSource ms W.results (lookupNames (← dataStr (← req group)))

/-- `lookup`, ttp/group/lookup.py 6-74 -/
def callLookup (W : World) (f : FnCall) (ms : MS) (data : Val) : PyM (MS × Val × Option Bool) := do
  let as ← bindArgs lookupParams f
  let key ← req (as.getD 0 none)
  if (as.getD 1 none).any Val.truthy then do
    let v ← lookup W.lookups (← dataStr (← req (as.getD 1 none))) data key ((as.getD 4 none).getD (.bool false))
      ((as.getD 5 none).getD (.bool true)) ((as.getD 6 none).getD (.bool false))
    pure (ms, v, none)
  else if (as.getD 2 none).any Val.truthy || (as.getD 3 none).any Val.truthy then do
    let src ← elsewhere W ms (as.getD 2 none) (as.getD 3 none)
    let v ← lookupFrom src.1 src.2 data key ((as.getD 4 none).getD (.bool false)) ((as.getD 5 none).getD (.bool true))
      ((as.getD 6 none).getD (.bool false))
    pure (ms, v, none)
  else pure (ms, data, none)

/-- `_ttp_["group"][func_name](data, *args, **kwargs)`, ttp/ttp.py 3256-3258; `KeyError` for an unknown name. The flags `None`
and `True` are both kept as acceptance (`None` here): `processgrp` only asks for `False`. -/
def builtin (W : World) : GroupFns := fun f ms data =>
  if checkNames.contains f.name then do pure (ms, data, if ← callCheck f ms data then none else some false)
  else if dataNames.contains f.name then do
    let r ← callData W f ms data
    pure (ms, r.1, if r.2 then none else some false)
  else if f.name = c!"record" then do
    let as ← bindArgs [c!"source", c!"target"] f
    pure (← record ms data (← req (as.getD 0 none)) (as.getD 1 none), data, none)
  else if f.name = c!"lookup" then callLookup W f ms data
  else if f.name = c!"sformat" then do
    let as ← bindArgs [c!"string", c!"add_field"] f
    pure (ms, ← sformat W.fmt ms data (← req (as.getD 0 none)) (← req (as.getD 1 none)), some true)
  else if f.name = c!"itemize" then do
    let as ← bindArgs [c!"key", c!"path"] f
    itemize W.toInt ms data (← req (as.getD 0 none)) (as.getD 1 none)
  else if f.name = c!"to_ip" then do
    let as ← bindArgs [c!"ip_key", c!"mask_key"] f
    pure (ms, ← toIpFn W data (← req (as.getD 0 none)) (← req (as.getD 1 none)), none)
  else if f.name = c!"cerberus" then do
    let as ← bindArgs [c!"schema", c!"log_errors", c!"allow_unknown", c!"add_errors"] f
    let r ← cerberus W ms data (← reqStr (← req (as.getD 0 none))) ((as.getD 2 none).getD (.bool true)) ((as.getD 3 none).getD (.bool false))
    pure (ms, r.1, r.2)
  else if f.name = c!"validate" then do
    let as ← bindArgs [c!"schema", c!"result", c!"info", c!"errors", c!"allow_unknown"] f
    pure (ms, ← validate W ms data (← reqStr (← req (as.getD 0 none))) ((as.getD 1 none).getD (.str c!"valid"))
      ((as.getD 2 none).getD (.str [])) ((as.getD 3 none).getD (.str [])) ((as.getD 4 none).getD (.bool true)), none)
  else otherCall W f ms data

end GroupFn
end TTP
