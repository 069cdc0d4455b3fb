import Verif.Model.Save
/-!
# The results machine

Model of `_results_class.make_results`, `save_vars`, `start`, `startempty`, `add`, `join`, `end`, `form_path` and
`processgrp` (ttp/ttp.py).
-/

namespace TTP
open Py

/-- `group_id`: absolute name and index of the group, ttp/ttp.py 1704, 1735 -/
abbrev GId := Str × Nat

/-- One function of a group or of a match variable: name and arguments, ttp/ttp.py 1660-1665, 2012-2030. -/
structure FnCall where
  name : Str
  args : List Val
  kwargs : Dict Str Val
  deriving DecidableEq, Repr

/-- `ACTION` of a regex, ttp/ttp.py 2697-2703 -/
inductive Action where
  | start | startempty | add | join | end_
  deriving DecidableEq, Repr

/-- `re_["ACTION"].startswith("start")`, ttp/ttp.py 2511, 2824 -/
def Action.isStart : Action → Bool
  | .start => true
  | .startempty => true
  | _ => false

/-- The parts of a regex dictionary and of its group that the results machine uses:
`REGEX`/`ACTION`/`IS_LINE`/`VARIABLES`/`GROUP`, ttp/ttp.py 1836-1860 and the group's `group_id`, `parent_group_id`,
`path`, `runs`, `funcs`. `vfuncs` maps a key of `VARIABLES` to the functions of that variable. -/
structure RE where
  gid : GId
  parent : Option GId
  path : List Str
  runs : Dict Key Val
  funcs : List FnCall
  action : Action
  isLine : Bool
  vfuncs : Dict Str (List FnCall)
  deriving DecidableEq, Repr

/-- `self.record`, ttp/ttp.py 2684-2690, 3074-3080; `merge` is the key `merge_with_last`. -/
structure Record where
  result : Dict Key Val
  path : List Str
  functions : List FnCall
  defaults : Dict Key Val
  grpId : Option GId
  merge : Bool
  deriving DecidableEq, Repr

/-- the empty record, ttp/ttp.py 2684-2690 and 2869-2875 -/
def Record.empty : Record := ⟨[], [], [], [], none, false⟩

/-- State of `_results_class` (ttp/ttp.py 2675-2692) with the template variables (`self.variables`, which is the
same object as `_ttp_["vars"]`) and `_ttp_["global_vars"]`. `started` has the last started group first. -/
structure MS where
  results : Val
  started : List GId
  ended : List GId
  record : Record
  dynCache : Dict Str Val
  vars : Dict Str Val
  gvars : Dict Str Val
  deriving DecidableEq, Repr

/-- Interpretation of group functions `_ttp_["group"][name](data, *args, **kwargs)`, ttp/ttp.py 3256-3258. A group
function can change the state of the machine (`record`, `itemize`), returns new data and a flag. -/
abbrev GroupFns := FnCall → MS → Val → PyM (MS × Val × Option Bool)

/-! ## Dynamic path -/

mutual
/-- `str(v)`; simplification: strings inside of containers are quoted without escapes -/
def pyStr : Val → Str
  | .none => c!"None"
  | .bool true => c!"True"
  | .bool false => c!"False"
  | .int n => intStr n
  | .flt t => t
  | .str s => s
  | .list xs => '[' :: join c!", " (pyReprs xs) ++ c!"]"
  | .dict kvs => '{' :: join c!", " (pyReprsD kvs) ++ c!"}"
/-- `repr` of the items of a list -/
def pyReprs : List Val → List Str
  | [] => []
  | v :: vs => (match v with
      | .str s => '\'' :: s ++ c!"'"
      | v => pyStr v) :: pyReprs vs
/-- `repr` of the items of a dictionary -/
def pyReprsD : List (Key × Val) → List Str
  | [] => []
  | (k, v) :: vs =>
    ((match k with
      | .s s => '\'' :: s ++ c!"'"
      | .i n => intStr n) ++ c!": " ++ (match v with
      | .str s => '\'' :: s ++ c!"'"
      | v => pyStr v)) :: pyReprsD vs
end

/-- octal digit -/
def isOct (c : Char) : Bool := decide (48 ≤ c.toNat) && decide (c.toNat ≤ 55)

/-- Expansion of the replacement text by `re.sub` (CPython `re._parser.parse_template`, pattern without groups):
`none` stands for `re.error`. Used for ttp/ttp.py 3220, 3226, 3228. -/
def reTemplate : Str → Option Str
  | [] => some []
  | '\\' :: [] => none
  | '\\' :: c :: rest =>
    if c = 'g' then none
    else if c = '0' then
      match rest with
      | a :: b :: r2 =>
        if isOct a && isOct b then (reTemplate r2).map (Char.ofNat (8 * digitVal a + digitVal b) :: ·)
        else if isOct a then (reTemplate (b :: r2)).map (Char.ofNat (digitVal a) :: ·)
        else (reTemplate (a :: b :: r2)).map (Char.ofNat 0 :: ·)
      | [a] =>
        if isOct a then some [Char.ofNat (digitVal a)] else (reTemplate [a]).map (Char.ofNat 0 :: ·)
      | [] => some [Char.ofNat 0]
    else if isDigit c then
      match rest with
      | a :: b :: r2 =>
        if isOct c && isOct a && isOct b && decide (64 * digitVal c + 8 * digitVal a + digitVal b ≤ 255) then
          (reTemplate r2).map (Char.ofNat (64 * digitVal c + 8 * digitVal a + digitVal b) :: ·)
        else none
      | _ => none
    else if c = 'n' then (reTemplate rest).map ('\n' :: ·)
    else if c = 't' then (reTemplate rest).map ('\t' :: ·)
    else if c = 'r' then (reTemplate rest).map ('\r' :: ·)
    else if c = 'a' then (reTemplate rest).map (Char.ofNat 7 :: ·)
    else if c = 'b' then (reTemplate rest).map (Char.ofNat 8 :: ·)
    else if c = 'f' then (reTemplate rest).map (Char.ofNat 12 :: ·)
    else if c = 'v' then (reTemplate rest).map (Char.ofNat 11 :: ·)
    else if c = '\\' then (reTemplate rest).map ('\\' :: ·)
    else if isAlpha c then none
    else (reTemplate rest).map (fun r => '\\' :: c :: r)
  | c :: rest => (reTemplate rest).map (c :: ·)

/-- the regex `{{\s*(\S+)\s*}}`, ttp/ttp.py 3211; the captured group is called `m` -/
def dynRe : Re :=
  .seq (Re.lits c!"{{") (.seq (.star true (.cls .space)) (.seq (.cap c!"m" (Re.plus true (.cls .nspace)))
    (.seq (.star true (.cls .space)) (Re.lits c!"}}"))))

/-- the regex `"{{\s*" + m + "\s*}}"`, ttp/ttp.py 3214; simplification: `m` is taken literally, which is exact for names
made of word characters -/
def dynReFor (m : Str) : Re :=
  .seq (Re.lits c!"{{") (.seq (.star true (.cls .space)) (.seq (Re.lits m)
    (.seq (.star true (.cls .space)) (Re.lits c!"}}"))))

/-- `re.findall(r"{{\s*(\S+)\s*}}", path_item)`, ttp/ttp.py 3211 -/
def dynNames (item : Str) : List Str := (Re.finditer dynRe item).filterMap (fun m => m.group c!"m")

/-- `self.record["result"].pop(m)` after `m in self.record["result"]`, ttp/ttp.py 3215-3217: `none` if `m` is not in the
result; a result that is not a dictionary raises `TypeError` when `m` is in it (or when `in` is not supported). -/
def popVar (m : Str) (res : Val) : PyM (Option (Val × Val)) :=
  match res with
  | .dict d =>
    match Dict.get? d (.s m) with
    | some v => pure (some (v, .dict (Dict.erase d (.s m))))
    | none => pure none
  | v => do if ← pyIn m v then throw .typeError else pure none

/-- One substitution of `form_path`, ttp/ttp.py 3213-3230. State: the cache, the current result and the path item;
`none` is the early `return False`. -/
def substVar (vars : Dict Str Val) (m : Str) (cache : Dict Str Val) (res : Val) (item : Str) :
    PyM (Dict Str Val × Val × Option Str) := do
  match ← popVar m res with
  | some (v, res') =>
    let cache' := Dict.set cache m v
    let repl := pyStr v
    match reTemplate repl with
    | some t => pure (cache', res', some (Re.sub (dynReFor m) t item))
    | none =>
      pure (cache', res', some (replace (Re.sub (dynReFor m) c!"__replace_me__" item) c!"__replace_me__" repl))
  | none =>
    match Dict.get? cache m with
    | some (.str s) =>
      match reTemplate s with
      | some t => pure (cache, res, some (Re.sub (dynReFor m) t item))
      | none => throw .reError
    | some _ => throw .typeError
    | none =>
      match Dict.get? vars m with
      | some v =>
        match reTemplate (pyStr v) with
        | some t => pure (cache, res, some (Re.sub (dynReFor m) t item))
        | none => throw .reError
      | none => pure (cache, res, none)

/-- all placeholders of one path item, ttp/ttp.py 3212-3230 -/
def substVars (vars : Dict Str Val) :
    List Str → Dict Str Val → Val → Str → PyM (Dict Str Val × Val × Option Str)
  | [], cache, res, item => pure (cache, res, some item)
  | m :: ms, cache, res, item => do
    let (cache', res', item') ← substVar vars m cache res item
    match item' with
    | some it => substVars vars ms cache' res' it
    | none => pure (cache', res', none)

/-- asterisks at the end, ttp/ttp.py 3209-3210: name without them and their number -/
def splitStars (item : Str) : Str × Nat :=
  (rstripP (· == '*') item, item.length - (rstripP (· == '*') item).length)

/-- `form_path`, ttp/ttp.py 3200-3235: new cache, new result, and the processed path or `False` -/
def formPath (vars : Dict Str Val) :
    List Str → Dict Str Val → Val → PyM (Dict Str Val × Val × Option (List PItem))
  | [], cache, res => pure (cache, res, some [])
  | item :: items, cache, res => do
    let (cache', res', item') ← substVars vars (dynNames (splitStars item).1) cache res (splitStars item).1
    match item' with
    | none => pure (cache', res', none)
    | some it => do
      let (cache'', res'', ps) ← formPath vars items cache' res'
      pure (cache'', res'', ps.map (⟨it, (splitStars item).2⟩ :: ·))

/-! ## Processing and saving of the current record -/

/-- group functions in order, stop at the first `False`, ttp/ttp.py 3251-3260 -/
def runFns (gf : GroupFns) : List FnCall → MS → Val → PyM (MS × Option Val)
  | [], ms, v => pure (ms, some v)
  | f :: fs, ms, v => do
    let (ms', v', flag) ← gf f ms v
    if flag = some false then pure (ms', none) else runFns gf fs ms' v'

/-- defaults are added for missing keys, ttp/ttp.py 3240-3241 -/
def addDefaults (result defaults : Dict Key Val) : Dict Key Val :=
  defaults.foldl (fun acc kv => Dict.setdefault acc kv.1 kv.2) result

/-- a late match is first joined with the saved record, ttp/ttp.py 3242-3250: new state and result -/
def preMerge (toInt : Bool) (ms : MS) (res0 : Dict Key Val) : PyM (MS × Val) :=
  if ms.record.merge then do
    let (cache, res, path) ← formPath ms.vars ms.record.path ms.dynCache (.dict res0)
    match path with
    | some (p :: ps) => do
      let (r, rec) ← reconstruct toInt res (p :: ps) ms.results
      pure ({ ms with dynCache := cache, results := r }, rec)
    | _ => pure ({ ms with dynCache := cache }, res)
  else pure (ms, Val.dict res0)

/-- the path is formed and an empty path or `False` stands for no saving, ttp/ttp.py 3261-3265 -/
def postPath (ms2 : MS) (v : Val) : PyM (MS × Option (Val × List PItem)) := do
  let (cache, res, path) ← formPath ms2.vars ms2.record.path ms2.dynCache v
  match path with
  | some (p :: ps) => pure ({ ms2 with dynCache := cache }, some (res, p :: ps))
  | _ => pure ({ ms2 with dynCache := cache }, none)

/-- `processgrp`, ttp/ttp.py 3237-3265: `none` stands for `False`, otherwise the data and the path to save -/
def processgrp (toInt : Bool) (gf : GroupFns) (ms : MS) : PyM (MS × Option (Val × List PItem)) := do
  let (ms1, res1) ← preMerge toInt ms (addDefaults ms.record.result ms.record.defaults)
  let (ms2, out) ← runFns gf ms1.record.functions ms1 res1
  match out with
  | none => pure (ms2, none)
  | some v => postPath ms2 v

/-- process the current record and save it unless it is rejected, ttp/ttp.py 2838-2841, 3070-3073, 3103-3106 -/
def flush (toInt : Bool) (gf : GroupFns) (ms : MS) : PyM MS := do
  let (ms', out) ← processgrp toInt gf ms
  match out with
  | none => pure ms'
  | some (data, path) => do
    let r ← save toInt ms'.record.merge data path ms'.results
    pure { ms' with results := r }

/-! ## Actions -/

/-- group path tracing, ttp/ttp.py 3053-3067 and 3086-3100 -/
def trace (re : RE) : List GId → List GId
  | [] => [re.gid]
  | t :: ts => if re.parent = some t then re.gid :: t :: ts
    else if re.isLine then re.gid :: t :: ts
    else trace re ts

/-- `start`, ttp/ttp.py 3049-3080, and `startempty`, 3082-3113, with the result to begin the new record with -/
def doStart (toInt : Bool) (gf : GroupFns) (re : RE) (result : Dict Key Val) (ms : MS) : PyM MS := do
  let ms' ← flush toInt gf { ms with started := trace re ms.started }
  pure { ms' with record := ⟨result, re.path, re.funcs, re.runs, some re.gid, false⟩ }

/-- second branch of `add` and `join`, ttp/ttp.py 3125-3137 and 3171-3183: a late match of a started group -/
def lateStart (toInt : Bool) (gf : GroupFns) (re : RE) (result : Dict Key Val) (ms : MS) : PyM MS := do
  if re.gid ∈ ms.started then do
    let ms' ← doStart toInt gf re result ms
    pure { ms' with record := { ms'.record with merge := true, defaults := [] } }
  else pure ms

/-- `add`, ttp/ttp.py 3115-3137 -/
def doAdd (toInt : Bool) (gf : GroupFns) (re : RE) (result : Dict Key Val) (ms : MS) : PyM MS :=
  if ms.record.path = re.path then
    pure { ms with record := { ms.record with result := Dict.update result ms.record.result } }
  else lateStart toInt gf re result ms

/-- `item["args"][0] if item["args"] else joinchar` for the first `joinmatches` of one variable, ttp/ttp.py 3150-3153 -/
def joinArg (cur : Val) : List FnCall → Val
  | [] => cur
  | f :: fs => if f.name = c!"joinmatches" then (f.args.head?).getD cur else joinArg cur fs

/-- the join character, ttp/ttp.py 3145-3153 -/
def joinChar (vfuncs : Dict Str (List FnCall)) (result : Dict Key Val) : Val :=
  result.foldl (fun cur kv =>
    match kv.1 with
    | .s name => match Dict.get? vfuncs name with
      | some fns => joinArg cur fns
      | none => cur
    | .i _ => cur) (.str ['\n'])

/-- joining of one value with the value of the record, ttp/ttp.py 3156-3167 -/
def joinVal (jc : Val) (old : Option Val) (new : Val) : PyM Val :=
  match old with
  | none => pure new
  | some (.str s) =>
    match jc, new with
    | .str j, .str n => pure (.str (s ++ (j ++ n)))
    | _, _ => throw .typeError
  | some (.list xs) =>
    match new with
    | .list ys => pure (.list (xs ++ ys))
    | v => pure (.list (xs ++ [v]))
  | some v => pure (.list [v, new])

/-- joining of a whole match into the record, ttp/ttp.py 3155-3167 -/
def joinAll (jc : Val) : Dict Key Val → Dict Key Val → PyM (Dict Key Val)
  | [], rec => pure rec
  | (k, v) :: rest, rec => do
    let w ← joinVal jc (Dict.get? rec k) v
    joinAll jc rest (Dict.set rec k w)

/-- `join`, ttp/ttp.py 3139-3183 -/
def doJoin (toInt : Bool) (gf : GroupFns) (re : RE) (result : Dict Key Val) (ms : MS) : PyM MS :=
  if ms.record.path = re.path then do
    let r ← joinAll (joinChar re.vfuncs result) result ms.record.result
    pure { ms with record := { ms.record with result := r } }
  else lateStart toInt gf re result ms

/-- `set.add` -/
def addEnded (ended : List GId) (g : GId) : List GId := if g ∈ ended then ended else g :: ended

/-- `end`, ttp/ttp.py 3185-3198; `self.started_groups[-1]` of an empty list raises `IndexError` -/
def doEnd (re : RE) (ms : MS) : PyM MS :=
  if ms.record.path ≠ re.path then
    match ms.started with
    | [] => throw .indexError
    | t :: _ => if re.gid = t then pure ms else pure { ms with ended := addEnded ms.ended re.gid }
  else pure { ms with ended := addEnded ms.ended re.gid }

/-- `saveFuncs[re_["ACTION"]](...)`, ttp/ttp.py 2830-2836 -/
def doAction (toInt : Bool) (gf : GroupFns) (re : RE) (result : Dict Key Val) (ms : MS) : PyM MS :=
  match re.action with
  | .start => doStart toInt gf re result ms
  | .startempty => doStart toInt gf re [] ms
  | .add => doAdd toInt gf re result ms
  | .join => doJoin toInt gf re result ms
  | .end_ => doEnd re ms

/-! ## Choice between matches of the same text position -/

/-- A match: regex and the matched data, `none` is `False` (a check failed). -/
abbrev Hit := RE × Option (Dict Key Val)

/-- the for/else loops of ttp/ttp.py 2732-2758: first item that satisfies `p1`, else the first that satisfies `p2`,
else the last item -/
def firstOr (p1 p2 : Hit → Bool) (hs : List Hit) : Option Hit :=
  match hs.find? p1 with
  | some h => some h
  | none =>
    match hs.find? p2 with
    | some h => some h
    | none => hs.getLast?

/-- same group as the current record and the checks passed, ttp/ttp.py 2736-2740, 2766-2770 -/
def sameGroupOk (ms : MS) (h : Hit) : Bool := h.2.isSome && ms.record.grpId == some h.1.gid

/-- child of the current record's group (by name prefix) or parent already started, ttp/ttp.py 2747-2758,
2777-2788 -/
def relatedOk (ms : MS) (h : Hit) : Bool :=
  h.2.isSome &&
    ((match ms.record.grpId with
      | some g => startsWith h.1.gid.1 g.1
      | none => false) ||
     (match h.1.parent with
      | some p => ms.started.contains p
      | none => false))

/-- same group as the current record, ttp/ttp.py 2795, 2810 -/
def sameGroup (ms : MS) (h : Hit) : Bool := ms.record.grpId == some h.1.gid

/-- group already started, ttp/ttp.py 2802 -/
def groupStarted (ms : MS) (h : Hit) : Bool := ms.started.contains h.1.gid

/-- selection between matches at the same position, ttp/ttp.py 2710-2811. `none` only for an empty list (then the
code raises `TypeError` at 2813, `None["GROUP"]`). -/
def select (ms : MS) (hs : List Hit) : Option Hit :=
  match hs with
  | [h] => some h
  | hs =>
    let lines := hs.filter (fun h => h.1.isLine)
    let rest := hs.filter (fun h => !h.1.isLine)
    let starts := rest.filter (fun h => h.1.action == .start)
    let startempties := rest.filter (fun h => h.1.action == .startempty)
    let normals := rest.filter (fun h => !(h.1.action == .start) && !(h.1.action == .startempty))
    if !startempties.isEmpty then firstOr (sameGroupOk ms) (relatedOk ms) startempties
    else if !starts.isEmpty then firstOr (sameGroupOk ms) (relatedOk ms) starts
    else if !normals.isEmpty then firstOr (sameGroup ms) (groupStarted ms) normals
    else firstOr (sameGroup ms) (fun _ => false) lines

/-- `parent_group_id in ended_groups`, ttp/ttp.py 2820 -/
def parentEnded (ms : MS) (re : RE) : Bool :=
  match re.parent with
  | some p => ms.ended.contains p
  | none => false

/-- one selected match, ttp/ttp.py 2815-2836 -/
def applyHit (toInt : Bool) (gf : GroupFns) (ms : MS) (h : Hit) : PyM MS :=
  match h.2 with
  | none => pure { ms with ended := addEnded ms.ended h.1.gid }
  | some data =>
    if parentEnded ms h.1 then pure ms
    else if h.1.gid ∈ ms.ended then
      if h.1.action.isStart then
        doAction toInt gf h.1 data { ms with ended := ms.ended.filter (fun g => g != h.1.gid) }
      else pure ms
    else doAction toInt gf h.1 data ms

/-- body of the loop over positions, ttp/ttp.py 2710-2836 -/
def step (toInt : Bool) (gf : GroupFns) (ms : MS) (hs : List Hit) : PyM MS :=
  match select ms hs with
  | none => throw .typeError
  | some h => applyHit toInt gf ms h

/-- the loop over positions, ttp/ttp.py 2708-2836 -/
def steps (toInt : Bool) (gf : GroupFns) : MS → List (List Hit) → PyM MS
  | ms, [] => pure ms
  | ms, hs :: rest => do steps toInt gf (← step toInt gf ms hs) rest

/-! ## Template variables saved to results -/

/-- insertion sort, for `sorted(...)` -/
def insertSorted {α : Type} (le : α → α → Bool) (x : α) : List α → List α
  | [] => [x]
  | y :: ys => if le x y then x :: y :: ys else y :: insertSorted le x ys

/-- `sorted(l)` -/
def sorted {α : Type} (le : α → α → Bool) (l : List α) : List α := l.foldr (insertSorted le) []

/-- order of strings by code points -/
def strLe : Str → Str → Bool
  | [], _ => true
  | _ :: _, [] => false
  | a :: as, b :: bs => if a.toNat < b.toNat then true else if b.toNat < a.toNat then false else strLe as bs

/-- the variables named for one path, ttp/ttp.py 2851-2854 -/
def pickVars (vars : Dict Str Val) (names : List Str) : Dict Key Val :=
  names.foldl (fun acc n => match Dict.get? vars n with
    | some v => Dict.set acc (.s n) v
    | none => acc) []

/-- one path of `save_vars`, ttp/ttp.py 2846-2867 -/
def saveVarsAt (toInt : Bool) (ms : MS) (pathItem : Str) (names : List Str) : PyM MS :=
  if pathItem.isEmpty then pure ms
  else do
    let (cache, res, path) ← formPath ms.vars ((splitC '.' pathItem).map strip) ms.dynCache
      (.dict (pickVars ms.vars names))
    match path with
    | some (p :: ps) => do
      let r ← save toInt false res (p :: ps) ms.results
      pure { ms with dynCache := cache, results := r }
    | _ => pure { ms with dynCache := cache }

/-- all paths in order -/
def saveVarsAll (toInt : Bool) : MS → List (Str × List Str) → PyM MS
  | ms, [] => pure ms
  | ms, (p, names) :: rest => do saveVarsAll toInt (← saveVarsAt toInt ms p names) rest

/-- `save_vars`, ttp/ttp.py 2843-2875; `vtr` is `variables["_vars_to_results_"]` -/
def saveVars (toInt : Bool) (vtr : Dict Str (List Str)) (ms : MS) : PyM MS := do
  let ms' ← saveVarsAll toInt ms (sorted (fun a b => strLe a.1 b.1) vtr)
  pure { ms' with record := Record.empty }

/-- `make_results`, ttp/ttp.py 2694-2841; `raw` has one list of positions per top group -/
def makeResults (toInt : Bool) (gf : GroupFns) (vtr : Dict Str (List Str)) (vars gvars : Dict Str Val)
    (raw : List (List (List Hit))) (mainResults : Val) : PyM MS := do
  let ms0 : MS := ⟨mainResults, [], [], Record.empty, [], vars, gvars⟩
  let ms1 ← if raw.isEmpty then pure ms0 else saveVars toInt vtr ms0
  let ms2 ← steps toInt gf ms1 raw.flatten
  flush toInt gf ms2

end TTP
