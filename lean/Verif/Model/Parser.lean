import Verif.Model.Line
/-!
# The parser: from text to matches to results

Model of `_parser_class` (ttp/ttp.py 2350-2658) and of `set_runs`, `update_runs` of a group (1911-1930).
-/

namespace TTP
open Py

/-! ## Groups -/

/-- What the matches of a group need to know about it: identity of the object (`uid`), `group_id`, `parent_group_id`,
`path`, `funcs`, `defaults`; ttp/ttp.py 1639-1697, 1706-1790 -/
structure GInfo where
  uid : Nat
  gid : GId
  parent : Option GId
  path : List Str
  funcs : List FnCall
  defaults : Dict Key Val
  deriving DecidableEq, Repr

/-- A group with its lines (`start_re`, `re`, `end_re`), `has_start_re_default` and child groups, ttp/ttp.py 1639-1697, 1866-1888 -/
inductive Grp where
  | mk (info : GInfo) (start normal end_ : List LineRx) (hasDefault : Bool) (children : List Grp)

/-- One collected match: group, line and the values (`none` is `False`) -/
structure RawHit where
  info : GInfo
  line : LineRx
  data : Option (Dict Key Val)
  deriving DecidableEq, Repr

/-- `results` of `run_re`: matches by position, in order of insertion -/
abbrev RawDict := Dict Nat (List RawHit)

/-! ## Checks of a match -/

/-- Second component of what a match function returns, ttp/ttp.py 2492-2505 -/
inductive Flag where
  | nothing | no | yes
  | newField (d : Dict Key Val)
  deriving DecidableEq, Repr

/-- template variables and global variables, changed by `record`, `count` and others -/
structure Env where
  vars : Dict Str Val
  gvars : Dict Str Val
  deriving DecidableEq, Repr

/-- Interpretation of `_ttp_["match"][name](data, *args, **kwargs)` with the fall back to methods of the data,
ttp/ttp.py 2454-2491 -/
abbrev MatchFns := FnCall → Env → Val → PyM (Env × Val × Flag)

/-- `flags["new_field"]` after one more flag, ttp/ttp.py 2497-2502 -/
def addFlag (flags : Option (Dict Key Val)) : Flag → Option (Dict Key Val)
  | .newField d =>
    match flags with
    | some old => some (Dict.update old d)
    | none => some d
  | _ => flags

/-- functions of one variable, left to right, ttp/ttp.py 2449-2502: `none` if one of them returned `False` -/
def runMatchFns (mf : MatchFns) : List FnCall → Env → Val → Option (Dict Key Val) →
    PyM (Env × Option (Val × Option (Dict Key Val)))
  | [], env, v, flags => pure (env, some (v, flags))
  | f :: fs, env, v, flags => do
    let (env', v', flag) ← mf f env v
    if flag = .no then pure (env', none) else runMatchFns mf fs env' v' (addFlag flags flag)

/-- the loop over matched variables, ttp/ttp.py 2447-2514; a name that is not in `VARIABLES` raises `KeyError` -/
def checkVars (mf : MatchFns) (vars : Dict Str (Str × List FnCall)) : List (Str × Str) → Env → Dict Key Val →
    PyM (Env × Option (Dict Key Val))
  | [], env, acc => pure (env, some acc)
  | (name, text) :: rest, env, acc =>
    match Dict.get? vars name with
    | none => throw .keyError
    | some (orig, fns) => do
      let (env', out) ← runMatchFns mf fns env (.str text) none
      match out with
      | none => pure (env', none)
      | some (v, flags) => checkVars mf vars rest env' (Dict.update (Dict.set acc (.s orig) v) (flags.getD []))

/-- `match.groupdict()`, or the whole match for every variable if there are no named groups, ttp/ttp.py 2438-2444 -/
def matchValues (line : LineRx) (m : Re.Match) : List (Str × Str) :=
  if m.caps.isEmpty then (Dict.keys line.vars).map (fun k => (k, m.text)) else m.caps

/-- one match of a line, ttp/ttp.py 2434-2514 -/
def checkMatch (mf : MatchFns) (line : LineRx) (m : Re.Match) (env : Env) : PyM (Env × Option (Dict Key Val)) :=
  checkVars mf line.vars (matchValues line m) env []

/-- `results[span_start].append(...)`, ttp/ttp.py 2519-2523 -/
def addRaw (results : RawDict) (pos : Nat) (h : RawHit) : RawDict :=
  Dict.set results pos ((Dict.get? results pos).getD [] ++ [h])

/-- `check_matches`, ttp/ttp.py 2432-2523; `start` is the position of the searched text in the data -/
def checkMatches (mf : MatchFns) (info : GInfo) (line : LineRx) (start : Nat) :
    List Re.Match → Env → RawDict → PyM (Env × RawDict)
  | [], env, results => pure (env, results)
  | m :: ms, env, results => do
    let (env', out) ← checkMatch mf line m env
    if out.isNone && !line.action.isStart then checkMatches mf info line start ms env' results
    else checkMatches mf info line start ms env' (addRaw results (start + m.start) ⟨info, line, out⟩)

/-! ## The search -/

/-- `DATATEXT[start:end]`, `none` is -1 -/
def slice (text : Str) (start : Nat) : Option Nat → Str
  | none => text.dropLast.drop start
  | some e => (text.take e).drop start

/-- what the loop over start lines finds out: lowest start position `s` (with `group_start_found`), `se`; ttp/ttp.py 2526-2545 -/
structure StartInfo where
  s : Option Nat
  se : Nat
  deriving DecidableEq, Repr

/-- start lines, ttp/ttp.py 2533-2545 -/
def runStarts (mf : MatchFns) (text : Str) (info : GInfo) (start : Nat) (stop : Option Nat) :
    List LineRx → StartInfo → Env → RawDict → PyM (StartInfo × Env × RawDict)
  | [], si, env, results => pure (si, env, results)
  | R :: Rs, si, env, results =>
    match Re.finditer R.re (slice text start stop) with
    | [] => runStarts mf text info start stop Rs si env results
    | m0 :: ms => do
      let (env', results') ← checkMatches mf info R start (m0 :: ms) env results
      let last := (m0 :: ms).getLastD m0
      let s := match si.s with
        | none => m0.start
        | some s => if s > m0.start then m0.start else s
      let se := if si.se < last.start && !R.isLine then last.stop + start else si.se
      runStarts mf text info start stop Rs ⟨some s, se⟩ env' results'

/-- end lines, ttp/ttp.py 2574-2582: the end `e` relative to `start`, `none` is -1 -/
def runEnds (mf : MatchFns) (text : Str) (info : GInfo) (start : Nat) (stop : Option Nat) (se : Nat) :
    List LineRx → Option Nat → Env → RawDict → PyM (Option Nat × Env × RawDict)
  | [], e, env, results => pure (e, env, results)
  | R :: Rs, e, env, results =>
    match Re.finditer R.re (slice text start stop) with
    | [] => runEnds mf text info start stop se Rs e env results
    | m0 :: ms => do
      let (env', results') ← checkMatches mf info R start (m0 :: ms) env results
      let last := (m0 :: ms).getLastD m0
      let bigger := match e with
        | none => true
        | some e => decide (e < last.stop)
      runEnds mf text info start stop se Rs (if bigger && decide (last.stop > se) then some last.stop else e) env' results'

/-- `for item in mathches: ... mathches.remove(item)`, ttp/ttp.py 2588-2590: the item after a removed one is skipped -/
def removeLoop (bad : RawHit → Bool) : List RawHit → List RawHit
  | [] => []
  | [x] => if bad x then [] else [x]
  | x :: y :: rest => if bad x then y :: removeLoop bad rest else x :: removeLoop bad (y :: rest)

/-- clean up of results beyond the last end match, ttp/ttp.py 2583-2596 -/
def cleanup (info : GInfo) (stop : Nat) (results : RawDict) : RawDict :=
  (results.map (fun kv => (kv.1, removeLoop (fun h => h.info.uid == info.uid && decide (kv.1 > stop)) kv.2))).filter
    (fun kv => !kv.2.isEmpty)

/-- ordinary lines, ttp/ttp.py 2597-2604 -/
def runNormals (mf : MatchFns) (text : Str) (info : GInfo) (start : Nat) (stop : Option Nat) :
    List LineRx → Env → RawDict → PyM (Env × RawDict)
  | [], env, results => pure (env, results)
  | R :: Rs, env, results => do
    let (env', results') ← checkMatches mf info R start (Re.finditer R.re (slice text start stop)) env results
    runNormals mf text info start stop Rs env' results'

/-- first free key from 10000000 on, ttp/ttp.py 2551, 2560-2562; the fuel is the number of keys -/
def freeKey (results : RawDict) : Nat → Nat → Nat
  | 0, key => key
  | fuel + 1, key => if Dict.has results key then freeKey results fuel (key + 1) else key

/-- the line that stands for a group without lines: `{"ACTION": "start", "VARIABLES": group.runs, "GROUP": group}`,
ttp/ttp.py 2553-2557; `IS_LINE` is missing there, which raises `KeyError` only if there are other matches at the key -/
def emptyStart : LineRx := ⟨.eps, [], .start, false⟩

/-- the result for a group without matches, ttp/ttp.py 2549-2563 -/
def addDefault (info : GInfo) (start : List LineRx) (results : RawDict) : RawDict :=
  Dict.set results (freeKey results results.length 10000000) [⟨info, (start.head?).getD emptyStart, some []⟩]

/-- `has_start_re_default` of a group -/
def Grp.hasDefault : Grp → Bool
  | .mk _ _ _ _ d _ => d

mutual
/-- `run_re`, ttp/ttp.py 2525-2608 -/
def runRe (mf : MatchFns) (text : Str) : Grp → Nat → Option Nat → Env → RawDict → PyM (Env × RawDict)
  | .mk info startL normalL endL hasDefault children, start, stop, env, results => do
    let (si, env1, results1) ← runStarts mf text info start stop startL ⟨none, 0⟩ env results
    match si.s with
    | none =>
      let results2 := if hasDefault then addDefault info startL results1 else results1
      runDefaultChildren mf text startL.isEmpty children start stop env1 results2
    | some s => do
      let start' := start + s
      let (e, env2, results2) ← runEnds mf text info start' stop si.se endL none env1 results1
      let (stop', results3) := match e with
        | none => (stop, results2)
        | some e => (some (start' + e), cleanup info (start' + e) results2)
      let (env3, results4) ← runNormals mf text info start' stop' normalL env2 results3
      runChildren mf text children start' stop' env3 results4
/-- child groups, ttp/ttp.py 2605-2607 -/
def runChildren (mf : MatchFns) (text : Str) : List Grp → Nat → Option Nat → Env → RawDict → PyM (Env × RawDict)
  | [], _, _, env, results => pure (env, results)
  | g :: gs, start, stop, env, results => do
    let (env', results') ← runRe mf text g start stop env results
    runChildren mf text gs start stop env' results'
/-- child groups of a group that was not found, ttp/ttp.py 2564-2567 -/
def runDefaultChildren (mf : MatchFns) (text : Str) (noStart : Bool) :
    List Grp → Nat → Option Nat → Env → RawDict → PyM (Env × RawDict)
  | [], _, _, env, results => pure (env, results)
  | g :: gs, start, stop, env, results => do
    let (env', results') ← if noStart || g.hasDefault then runRe mf text g start stop env results else pure (env, results)
    runDefaultChildren mf text noStart gs start stop env' results'
end

/-- insertion of a position into a sorted list -/
def insertPos (kv : Nat × List RawHit) : RawDict → RawDict
  | [] => [kv]
  | x :: xs => if kv.1 ≤ x.1 then kv :: x :: xs else x :: insertPos kv xs

/-- `[group_result[key] for key in sorted(list(group_result.keys()))]`, ttp/ttp.py 2627-2632, with the keys -/
def sortRaw (results : RawDict) : RawDict := results.foldr insertPos []

/-! ## Defaults -/

/-- `for dk, dv in self.runs.items(): if dv == k: self.runs[dk] = v` for all pairs of the data, ttp/ttp.py 1922-1927 -/
def updateRuns (runs : Dict Key Val) (data : Dict Str Val) : Dict Key Val :=
  data.foldl (fun runs kv => runs.map (fun d => if d.2 = .str kv.1 then (d.1, kv.2) else d)) runs

/-- the match as the results machine sees it; `runs` of the group are computed after all matches were collected,
ttp/ttp.py 2620-2623 -/
def toHit (env : Env) (h : RawHit) : Hit :=
  (⟨h.info.gid, h.info.parent, h.info.path, updateRuns (updateRuns h.info.defaults env.gvars) env.vars, h.info.funcs,
    h.line.action, h.line.isLine, h.line.vars.map (fun kv => (kv.1, kv.2.2))⟩, h.data)

/-! ## The whole -/

/-- text data as it is searched, ttp/ttp.py 2374-2375 -/
def dataText (d : Str) : Str := '\n' :: (d ++ c!"\n\n")

/-- matches of the top groups with and without own outputs, ttp/ttp.py 2610-2618 -/
def runGroups (mf : MatchFns) (text : Str) : List Grp → Env → PyM (Env × List RawDict)
  | [], env => pure (env, [])
  | g :: gs, env => do
    let (env1, r) ← runRe mf text g 0 none env []
    let (env2, rs) ← runGroups mf text gs env1
    pure (env2, r :: rs)

/-- `_parser_class.parse` for groups without own outputs, ttp/ttp.py 2424-2639: all results of a text; `vtr` is
`vars["_vars_to_results_"]`. Groups with own outputs are not modelled. -/
def parseText (mf : MatchFns) (gf : GroupFns) (toInt : Bool) (vtr : Dict Str (List Str)) (groups : List Grp) (text : Str)
    (env : Env) (mainResults : Val) : PyM MS := do
  let (env', raws) ← runGroups mf text groups env
  let raw := (raws.filter (fun r => !r.isEmpty)).map (fun r => (sortRaw r).map (fun kv => kv.2.map (toHit env')))
  makeResults toInt gf vtr env'.vars env'.gvars raw mainResults

end TTP
