import Verif.Model.Tags
import Verif.Model.Format
import Verif.Model.Json
import Verif.Model.Group
/-!
# Outputs: attributes, functions, formatters, returners

Model of the attributes of `_outputter_class` (ttp/ttp.py 3278-3393) that formatters and returners get, of the output functions (ttp/output/),
of the formatters `raw`, `json`, `table`, `csv` and `tabulate` (up to the call of the library), and of the returners `file`, `terminal`,
`syslog` and `self`, with what they do outside. Not modelled here: the other formatters and the output function `validate_yangson` (its own model is Model/Yangson) (parameters of
`OutWorld`); the libraries Cerberus and DeepDiff are parameters.
-/

namespace TTP
open Py

namespace OutFn

/-- An output with all its attributes (`self.attributes`) and what its tag contains (`self.tag_load`), ttp/ttp.py 3278-3304 -/
structure OutTag where
  out : Outputter
  attrs : Dict Str Val
  tagLoad : Val
  deriving DecidableEq

/-- What a returner does outside of the program. -/
inductive Eff where
  | mkdir (path : Str)
  | write (path text : Str)
  | print (text : Str)
  | send (server : Str) (port : Int) (text : Str)
  deriving DecidableEq, Repr

/-- What outputs need from outside: the clock, the file system, macros, variables of the last data item, fields of format strings
that are not plain, and the functions (given the attributes and the text of the output), formatters (given the attributes) and returners that are
not modelled; the variables of the template, the validator (schema,
`allow_unknown`, document; verdict and errors), the comparison of two data with options, names and numbers of data items of the inputs, the
results method of the template, names and results of all templates. -/
structure OutWorld where
  strftime : Str → Str
  ctime : Str
  pathExists : Str → Bool
  macros : Dict Str (Val → PyM Val)
  gvars : Dict Str Val
  vars : Dict Str Val
  fmt : Str → List Val → Dict Str Val → PyM Str
  outFn : FnCall → Dict Str Val → Val → Val → PyM Val
  formatter : Str → Dict Str Val → Option (Val → PyM Val)
  tabulate : List Val → List Val → List Val → Dict Str Val → PyM Val
  tvars : Dict Str Val
  validator : Val → Val → Val → PyM (Bool × Val)
  deepdiff : Val → Val → Dict Str Val → PyM Val
  inputs : List (Str × Nat)
  method : Str
  templates : List (Str × Val)

/-! ## Attributes -/

/-- texts as values -/
def strList (ss : List Str) : Val := .list (ss.map .str)

/-- what one attribute does with `self.attributes`, ttp/ttp.py 3306-3342, 3376-3393 -/
def tagAttr (C : TplCtx) (W : OutWorld) (attrs : Dict Str Val) (name : Str) (v : Val) : PyM (Dict Str Val) :=
  if lower name = c!"name" then pure attrs
  else if lower name = c!"returner" then do pure (Dict.set attrs c!"returner" (strList (commaList (← asText v))))
  else if lower name = c!"filename" then do
    match v with
    | .str s => pure (Dict.set attrs c!"filename" (.str (W.strftime s)))
    | _ => throw .typeError
  else if lower name = c!"format_attributes" then do
    let f ← oneCall C.load c!"format_attributes" v
    pure (Dict.set attrs c!"format_attributes"
      (.dict [(.s c!"args", .list f.args), (.s c!"kwargs", .dict (f.kwargs.map (fun kv => (.s kv.1, kv.2))))]))
  else if lower name = c!"path" then do pure (Dict.set attrs c!"path" (strList ((splitC '.' (← asText v)).map strip)))
  else if lower name = c!"headers" then
    match v with
    | .str s => pure (Dict.set attrs c!"headers" (strList (commaList s)))
    | v => pure (Dict.set attrs c!"headers" v)
  else if lower name = c!"condition" then do
    let f ← oneCall C.load c!"condition" v
    pure (Dict.set attrs c!"condition" (.list f.args))
  else if lower name = c!"functions" then pure attrs
  else if C.isOutFn name then pure attrs
  else pure (Dict.set attrs name v)

/-- all attributes in order, ttp/ttp.py 3385-3393: a copy is read while `self.attributes` changes -/
def tagAttrs (C : TplCtx) (W : OutWorld) : Dict Str Val → Dict Str Val → PyM (Dict Str Val)
  | [], attrs => pure attrs
  | (n, v) :: rest, attrs => do tagAttrs C W rest (← tagAttr C W attrs n v)

/-- `_outputter_class.__init__` with an element, ttp/ttp.py 3278-3304. Simplification: the parts of the output that `Outputter` has are read
first, then the other attributes; Python reads both in one pass (it matters only for which of two errors is raised). -/
def readTag (C : TplCtx) (W : OutWorld) (x : Xml) : PyM OutTag := do
  let load ← loadStruct C x.text (outBase x.attrib)
  let all := outMerged (outBase x.attrib) load
  let o ← loadOutput C x
  let attrs ← tagAttrs C W all all
  pure ⟨o, attrs, if load.truthy then load else (x.text.map Val.str).getD .none⟩

/-! ## Functions -/

/-- a path: a text with dots or a list of texts; ttp/output/transform.py 15-16 -/
def pathArg : Val → PyM (List Str)
  | .str s => pure (Format.pathOf s)
  | .list xs => MatchFn.allStrs xs
  | _ => throw .typeError

/-- `is_equal`, ttp/output/is_equal.py 1-16 -/
def isEqualFn (t : OutTag) (data : Val) : PyM Val := do
  let b ← Format.isEqual t.tagLoad data
  pure (.dict [(.s c!"output_name", (t.out.name.map Val.str).getD .none),
    (.s c!"output_description", (Dict.get? t.attrs c!"description").getD (.str c!"None")), (.s c!"is_equal", .bool b)])

/-! ### validate -/

/-- the text `info` with the values of the item filled in, ttp/output/validate_cerberus.py 22-27: the item afterwards - `sformat` of groups adds
the text to the item itself, as `inf` - and the text; after any error, and if `inf` is not there, the text as it is -/
def infoOf (W : OutWorld) (d : Dict Key Val) (info : Val) : Dict Key Val × Val :=
  match GroupFn.sformat W.fmt ⟨.none, [], [], Record.empty, [], W.vars, W.gvars⟩ (.dict d) info (.str c!"inf") with
  | .ok (.dict d') =>
    match Dict.get? d' (.s c!"inf") with
    | some v => (d', v)
    | none => (d', info)
  | _ => (d, info)

/-- options of `validate` -/
structure ValidateOpts where
  result : Val
  info : Val
  errors : Val
  allow : Val

/-- the report with `info`, ttp/output/validate_cerberus.py 21-27: item and report -/
def reportInfo (W : OutWorld) (o : ValidateOpts) (d ret : Dict Key Val) : Dict Key Val × Dict Key Val :=
  if o.info.truthy then ((infoOf W d o.info).1, Dict.set ret (.s c!"info") (infoOf W d o.info).2) else (d, ret)

/-- the report with `errors`, ttp/output/validate_cerberus.py 28-29 -/
def reportErrors (errors errs : Val) (ret : Dict Key Val) : PyM (Dict Key Val) :=
  if errors.truthy then do pure (Dict.set ret (← MatchFn.asKey errors) errs) else pure ret

/-- `_run_validation`, ttp/output/validate_cerberus.py 19-30: the item afterwards and the report -/
def runValidation (W : OutWorld) (o : ValidateOpts) (schema : Val) (d : Dict Key Val) : PyM (Dict Key Val × Val) := do
  let r ← W.validator schema o.allow (.dict d)
  let k ← MatchFn.asKey o.result
  let p := reportInfo W o d [(k, .bool r.1)]
  let ret ← reportErrors o.errors r.2 p.2
  pure (p.1, .dict ret)

/-- the items of a list, ttp/output/validate_cerberus.py 57-62: the list afterwards and the reports, for dictionaries only -/
def validateItems (W : OutWorld) (o : ValidateOpts) (schema : Val) : List Val → PyM (List Val × List Val)
  | [] => pure ([], [])
  | .dict d :: vs => do
    let r ← runValidation W o schema d
    let rs ← validateItems W o schema vs
    pure (.dict r.1 :: rs.1, r.2 :: rs.2)
  | v :: vs => do
    let rs ← validateItems W o schema vs
    pure (v :: rs.1, rs.2)

/-- `validate` with a schema, ttp/output/validate_cerberus.py 50-62: the results afterwards and what is returned -/
def validateWith (W : OutWorld) (o : ValidateOpts) (schema : Val) : Val → PyM (Val × Val)
  | .dict d => do
    let r ← runValidation W o schema d
    pure (.dict r.1, r.2)
  | .list vs => do
    let r ← validateItems W o schema vs
    pure (.list r.1, .list r.2)
  | v => pure (v, .none)

/-- `validate`, ttp/output/validate_cerberus.py 33-62; the library is installed -/
def validateOut (W : OutWorld) (o : ValidateOpts) (schema : Str) (data : Val) : PyM (Val × Val) :=
  match GroupFn.schemaOf W.tvars schema with
  | none => pure (data, data)
  | some sc => validateWith W o sc data

/-! ### deepdiff -/

/-- `input_to_results_index[name]`, ttp/output/deepdiffer.py 50-57: where the results of the input begin and how many there are. Inputs are keys of
a dictionary: their names differ. -/
def indexOf (name : Str) : List (Str × Nat) → Nat → PyM (Nat × Nat)
  | [], _ => throw .keyError
  | (n, k) :: rest, counter => if n = name then pure (counter, k) else indexOf name rest (counter + k)

/-- `[data[index] for index in ...]`, ttp/output/deepdiffer.py 58-60, 84; simplification: data that are no list raise `KeyError` -/
def itemsAt (data : Val) (at_ : Nat × Nat) : PyM (List Val) :=
  match data with
  | .list xs => if at_.2 = 0 ∨ at_.1 + at_.2 ≤ xs.length then pure ((xs.drop at_.1).take at_.2) else throw .indexError
  | _ => throw .keyError

/-- results of an input, ttp/output/deepdiffer.py 58-60, 84 -/
def inputItems (W : OutWorld) (data : Val) (name : Str) : PyM (List Val) := do itemsAt data (← indexOf name W.inputs 0)

/-- what the data are compared with, ttp/output/deepdiffer.py 46-78, when there is something to compare with: `none` if nothing was found, so that
`data_before` is not bound -/
def dataBefore (W : OutWorld) (data : Val) (input template var : Option Str) : PyM (Option Val) :=
  match input, template, var with
  | some i, _, _ => do pure (some (.list (← inputItems W data i)))
  | none, some t, _ => pure ((W.templates.find? (fun e => e.1 == t)).map Prod.snd)
  | none, none, some v =>
    match Dict.get? W.tvars v with
    | some x => pure (some x)
    | none => throw .keyError
  | none, none, none => pure none

/-- the data to compare, ttp/output/deepdiffer.py 81-84: `input_to_results_index` is not bound without `input_before` -/
def dataAfter (W : OutWorld) (data : Val) (before after : Option Str) : PyM Val :=
  match after with
  | none => pure data
  | some a => if before.isSome then do pure (.list (← inputItems W data a)) else throw .unboundLocal

/-- `data_before` in use -/
def bound : Option Val → PyM Val
  | some v => pure v
  | none => throw .unboundLocal

/-- `data_before[0]`, ttp/output/deepdiffer.py 91 -/
def firstItem : Val → PyM Val
  | .list (v :: _) => pure v
  | .list [] => throw .indexError
  | .str (c :: _) => pure (.str [c])
  | .str [] => throw .indexError
  | .dict _ => throw .keyError
  | _ => throw .typeError

/-- the comparisons of mode `iterate`, ttp/output/deepdiffer.py 91 -/
def diffEach (W : OutWorld) (opts : Dict Str Val) (before : Option Val) : List Val → PyM (List Val)
  | [] => pure []
  | v :: vs => do
    let b ← firstItem (← bound before)
    let r ← W.deepdiff b v opts
    pure (r :: (← diffEach W opts before vs))

/-- what a `for` loop goes through -/
def itemsOf : Val → PyM (List Val)
  | .list vs => pure vs
  | .dict d => pure (d.map (fun kv => Format.keyVal kv.1))
  | .str s => pure (s.map (fun c => .str [c]))
  | _ => throw .typeError

/-- the comparison, ttp/output/deepdiffer.py 86-98: `none` for a mode that is not known -/
def compareWith (W : OutWorld) (opts : Dict Str Val) (mode : Val) (before : Option Val) (after : Val) : PyM (Option Val) :=
  if mode = .str c!"bulk" then do
    let b ← bound before
    pure (some (← W.deepdiff b after opts))
  else if mode = .str c!"iterate" then do
    let vs ← itemsOf after
    pure (some (.list (← diffEach W opts before vs)))
  else pure none

/-- the result in the data, ttp/output/deepdiffer.py 100-108 -/
def placed (field : Val) (data result : Val) : PyM Val :=
  if field.truthy then
    match data with
    | .list vs => do pure (.list (vs ++ [.dict [(← MatchFn.asKey field, result)]]))
    | .dict d => do pure (.dict (Dict.set d (← MatchFn.asKey field) result))
    | v => pure v
  else pure result

/-- a name among the arguments: not there, `None` and the empty text are no name; simplification: anything else raises `TypeError` -/
def nameArg : Option Val → PyM (Option Str)
  | none => pure none
  | some .none => pure none
  | some (.str []) => pure none
  | some (.str s) => pure (some s)
  | _ => throw .typeError

/-- comparison and result, ttp/output/deepdiffer.py 62-108; with `input_before` in a template with results per template nothing is done;
simplification: any other results method is `per_input` -/
def diffRun (W : OutWorld) (data : Val) (ib ia tb vb : Option Str) (mode field : Val) (opts : Dict Str Val) : PyM Val :=
  if ib.isSome ∧ W.method = c!"per_template" then pure data
  else do
    let b ← dataBefore W data ib tb vb
    let a ← dataAfter W data ib ia
    match ← compareWith W opts mode b a with
    | some r => placed field data r
    | none => pure data

/-- parameters of `deepdiff`, ttp/output/deepdiffer.py 19-27 -/
def diffParams : List Str := [c!"input_before", c!"input_after", c!"template_before", c!"mode", c!"add_field", c!"var_before"]

/-- `deepdiff`, ttp/output/deepdiffer.py 19-108: other arguments are options of the comparison; the library is installed -/
def deepdiffFn (W : OutWorld) (f : FnCall) (data : Val) : PyM Val := do
  let as ← MatchFn.bindArgs diffParams { f with kwargs := f.kwargs.filter (fun kv => diffParams.contains kv.1) }
  let ib ← nameArg (as.getD 0 none)
  let ia ← nameArg (as.getD 1 none)
  let tb ← nameArg (as.getD 2 none)
  let vb ← nameArg (as.getD 5 none)
  diffRun W data ib ia tb vb ((as.getD 3 none).getD (.str c!"bulk")) ((as.getD 4 none).getD (.bool false))
    (f.kwargs.filter (fun kv => !diffParams.contains kv.1))

/-- `_ttp_["output"][name](results, *args, **kwargs)`, ttp/ttp.py 3415-3419, files of ttp/output/. Simplification: changes of the data in
place by `dict_to_list` and `validate` are not followed (they are in `Format.dictToList` and `validateOut`). -/
def callOut (W : OutWorld) (t : OutTag) (f : FnCall) (data : Val) : PyM Val :=
  if f.name = c!"macro" then do
    let as ← MatchFn.bindArgs [c!"macro_name"] f
    Format.outMacro W.macros data (← MatchFn.reqStr (← MatchFn.req (as.getD 0 none)))
  else if f.name = c!"is_equal" then do
    let _ ← MatchFn.bindArgs [] f
    isEqualFn t data
  else if f.name = c!"traverse" then do
    let as ← MatchFn.bindArgs [c!"path", c!"strict"] f
    Format.traverse ((as.getD 1 none).getD (.bool true)).truthy (← pathArg (← MatchFn.req (as.getD 0 none))) data
  else if f.name = c!"dict_to_list" then do
    let as ← MatchFn.bindArgs [c!"key_name", c!"path", c!"strict"] f
    let key ← MatchFn.reqStr ((as.getD 0 none).getD (.str c!"key"))
    match (as.getD 1 none).getD .none with
    | .none => pure (Format.dictToList key data).2
    | p =>
      if p.truthy then do
        let d ← Format.traverse ((as.getD 2 none).getD (.bool false)).truthy (← pathArg p) data
        pure (Format.dictToList key d).2
      else pure (Format.dictToList key data).2
  else if f.name = c!"validate" then do
    let as ← MatchFn.bindArgs [c!"schema", c!"result", c!"info", c!"errors", c!"allow_unknown"] f
    let o : ValidateOpts := ⟨(as.getD 1 none).getD (.str c!"valid"), (as.getD 2 none).getD (.str []), (as.getD 3 none).getD (.str []),
      (as.getD 4 none).getD (.bool true)⟩
    let r ← validateOut W o (← MatchFn.reqStr (← MatchFn.req (as.getD 0 none))) data
    pure r.2
  else if f.name = c!"deepdiff" then deepdiffFn W f data
  else W.outFn f t.attrs t.tagLoad data

/-! ## Formatters -/

/-- headers as keys -/
def headerKeys : List Val → PyM (List Key)
  | [] => pure []
  | v :: vs => do pure ((← MatchFn.asKey v) :: (← headerKeys vs))

/-- `path` of a table: none is the empty path, ttp/formatters/table_formatter.py 5 -/
def optPath : Val → PyM (List Str)
  | .none => pure []
  | v => pathArg v

/-- `headers` of a table, ttp/formatters/table_formatter.py 9 -/
def optHeaders : Val → PyM (List Key)
  | .none => pure []
  | .list xs => headerKeys xs
  | _ => throw .typeError

/-- keyword arguments of `table`, ttp/formatters/table_formatter.py 1-16; simplification: `key` is a text -/
def tableOpts (attrs : Dict Str Val) : PyM Format.TableOpts := do
  let path ← optPath ((Dict.get? attrs c!"path").getD .none)
  let headers ← optHeaders ((Dict.get? attrs c!"headers").getD .none)
  pure ⟨path, (Dict.get? attrs c!"missing").getD (.str []), ← MatchFn.reqStr ((Dict.get? attrs c!"key").getD (.str [])),
    ((Dict.get? attrs c!"strict").getD (.bool true)).truthy, headers⟩

/-- rows of a table as values: the headers are the first -/
def tableVal (t : List Key × List (List Val)) : List Val := .list (t.1.map Format.keyVal) :: t.2.map .list

/-- arguments of `tabulate`, ttp/formatters/tabulate_formatter.py 20-24 -/
def formatArgs (attrs : Dict Str Val) : List Val × Dict Str Val :=
  match Dict.get? attrs c!"format_attributes" with
  | some (.dict d) =>
    (match Dict.get? d (.s c!"args") with
      | some (.list xs) => xs
      | _ => [],
     match Dict.get? d (.s c!"kwargs") with
      | some (.dict k) => strKeys k
      | _ => [])
  | _ => ([], [])

/-- `_ttp_["formatters"][format](results, **self.attributes)`, ttp/ttp.py 3420-3422, ttp/formatters/raw_formatter.py, json_formatter.py, table_formatter.py,
csv_formatter.py, tabulate_formatter.py -/
def formatTag (W : OutWorld) (t : OutTag) (name : Str) : Option (Val → PyM Val) :=
  if name = c!"raw" then some pure
  else if name = c!"json" then some (fun data => do pure (.str (← Json.jsonFormatter data)))
  else if name = c!"table" then some (fun data => do pure (.list (tableVal (← Format.table (← tableOpts t.attrs) data))))
  else if name = c!"csv" then some (fun data => do
    let o ← tableOpts t.attrs
    let sep ← MatchFn.reqStr ((Dict.get? t.attrs c!"sep").getD (.str c!","))
    let quote ← MatchFn.reqStr ((Dict.get? t.attrs c!"quote").getD (.str c!"\""))
    pure (.str (← Format.csv o sep quote data)))
  else if name = c!"tabulate" then some (fun data => do
    let r ← Format.table (← tableOpts t.attrs) data
    W.tabulate (r.1.map Format.keyVal) (r.2.map .list) (formatArgs t.attrs).1 (formatArgs t.attrs).2)
  else W.formatter name t.attrs

/-! ## Returners -/

/-- `os.path.join(a, b)` -/
def osJoin (a b : Str) : Str :=
  if startsWith b c!"/" then b
  else if a = [] ∨ endsWith a c!"/" then a ++ b
  else a ++ '/' :: b

/-- the name with the variables filled in, ttp/returners/file_returner.py 20-27: after an error of `format` the name stays as it is -/
def fillName (W : OutWorld) (s : Str) : Str :=
  match Fmt.format W.fmt s [] (Dict.update W.gvars W.vars) with
  | .ok n => n
  | .error _ => s

/-- the name before the name of the output is added, ttp/returners/file_returner.py 19-29 -/
def nameGiven (W : OutWorld) : Option Val → PyM Str
  | some (.str s) => pure (fillName W s)
  | some _ => throw .typeError
  | none => pure (c!"output_" ++ W.ctime ++ c!".txt")

/-- file name, ttp/returners/file_returner.py 19-32 -/
def fileName (W : OutWorld) (t : OutTag) : PyM Str := do
  let given := Dict.get? t.attrs c!"filename"
  let name ← nameGiven W given
  if (given.getD (.bool false)).truthy then pure name
  else match t.out.name with
    | some n => pure (n ++ c!"_" ++ name)
    | none => throw .typeError

/-- `file_returner`, ttp/returners/file_returner.py 12-53; simplification: no workbooks, and `os.mkdir` and `open` do not fail -/
def fileReturner (W : OutWorld) (t : OutTag) (data : Val) : PyM (List Eff) := do
  let url ← MatchFn.reqStr ((Dict.get? t.attrs c!"url").getD (.str c!"./Output/"))
  let name ← fileName W t
  pure ((if W.pathExists url then [] else [.mkdir url]) ++ [.write (osJoin url name) (pyStr data)])

/-- the words of a colour -/
def colourWords (attrs : Dict Str Val) (name : Str) (default : Str) : PyM (List Str) := do
  pure (commaList (← asText ((Dict.get? attrs name).getD (.str default))))

/-- `data.replace(word, code + word + reset)` for each word, ttp/returners/terminal_returner.py 29-34 -/
def colour (code : Str) (words : List Str) (s : Str) : Str :=
  words.foldl (fun s w => replace s w (code ++ w ++ c!"\x1b[0m")) s

/-- `terminal_returner`, ttp/returners/terminal_returner.py 4-49 (Python 3) -/
def terminal (t : OutTag) (data : Val) : PyM (List Eff) := do
  let data ← if Dict.has t.attrs c!"colour" then do
      let red ← colourWords t.attrs c!"red" c!"False,No,Failed,Error,Failure,Fail,false,no,failed,error,failure,fail"
      let green ← colourWords t.attrs c!"green" c!"True,Yes,Success,Ok,true,yes,success,ok"
      let yellow ← colourWords t.attrs c!"yellow" c!"Warning,warning"
      let s ← asText data
      pure (.str (colour c!"\x1b[0;33;40m" yellow (colour c!"\x1b[0;32;40m" green (colour c!"\x1b[0;31;40m" red s))))
    else pure data
  match data with
  | .str s => pure [.print s]
  | v => pure [.print (replace (pyStr v) c!"\\n" c!"\n")]

/-- the messages of one datum, ttp/returners/syslog_returner.py 38-78: what cannot be traversed or turned into JSON is logged only -/
def messages (W : OutWorld) (path : List Str) (iterate : Bool) (datum : Val) : List Str :=
  if !datum.truthy then []
  else match Format.traverse true path datum with
    | .error _ => []
    | .ok item =>
      if !item.truthy then []
      else match item with
        | .list xs => if iterate then xs.filterMap (fun i => (Json.dump Json.compact 0 i).toOption) else (Json.dump Json.compact 0 item).toOption.toList
        | _ => (Json.dump Json.compact 0 item).toOption.toList

/-- `int(kwargs.get("port", 514))` -/
def portOf : Val → PyM Int
  | .int n => pure n
  | .bool b => pure (if b then 1 else 0)
  | .str s => match intOfStr s with
    | some n => pure n
    | none => throw .valueError
  | _ => throw .typeError

/-- `servers`, ttp/returners/syslog_returner.py 12-13: a text is one server -/
def serversOf : Val → PyM (List Str)
  | .none => pure []
  | .str s => pure [s]
  | .list xs => MatchFn.allStrs xs
  | _ => throw .typeError

/-- `interval / 1000`, ttp/returners/syslog_returner.py 23 -/
def intervalOk : Val → PyM Unit
  | .int _ => pure ()
  | .bool _ => pure ()
  | .flt _ => pure ()
  | _ => throw .typeError

/-- the data as a list, ttp/returners/syslog_returner.py 25 -/
def sourceOf : Val → List Val
  | .list xs => xs
  | v => [v]

/-- `syslog`, ttp/returners/syslog_returner.py 10-82; the interval is divided by 1000, which raises for a text. Simplifications: no pause
between messages; opening the connection and sending do not fail. -/
def syslog (W : OutWorld) (t : OutTag) (data : Val) : PyM (List Eff) := do
  let servers ← serversOf ((Dict.get? t.attrs c!"servers").getD .none)
  if servers = [] then pure []
  else do
    let port ← portOf ((Dict.get? t.attrs c!"port").getD (.int 514))
    let path ← pathArg ((Dict.get? t.attrs c!"path").getD (.list []))
    intervalOk ((Dict.get? t.attrs c!"interval").getD (.int 1))
    let iterate := ((Dict.get? t.attrs c!"iterate").getD (.bool true)).truthy
    pure (servers.flatMap (fun s => ((sourceOf data).flatMap (messages W path iterate)).map (.send s port)))

/-- the returners by name (without `self`), ttp/ttp.py 3430-3438 -/
def returnTag (W : OutWorld) (t : OutTag) (name : Str) : Option (Val → PyM (List Eff)) :=
  if name = c!"file" then some (fileReturner W t)
  else if name = c!"terminal" then some (terminal t)
  else if name = c!"syslog" then some (syslog W t)
  else none

/-- returners in order, ttp/ttp.py 3430-3438, ttp/returners/self_returner.py 4-6; simplification: what was done before an error is not reported -/
def runReturnersE (W : OutWorld) (t : OutTag) (v : Val) : List Str → Bool → PyM (Bool × List Eff)
  | [], flag => pure (flag, [])
  | r :: rs, flag => do
    if r = c!"self" then runReturnersE W t v rs true
    else
      match returnTag W t r with
      | some f => do
        let es ← f v
        let rest ← runReturnersE W t v rs flag
        pure (rest.1, es ++ rest.2)
      | none => runReturnersE W t v rs flag

/-- the engine with the functions, formatters and returners of this output -/
def engineOf (E : Engine) (W : OutWorld) (t : OutTag) : Engine :=
  { E with outFns := callOut W t, formatters := formatTag W t,
           returners := fun r => (returnTag W t r).map (fun f v => do let _ ← f v) }

/-- `_outputter_class.run`, ttp/ttp.py 3395-3443: the data handed on, the output afterwards, and what was done outside -/
def runTag (E : Engine) (W : OutWorld) (tvars : Dict Str Val) (t : OutTag) (data : Val) : PyM (Val × OutTag × List Eff) := do
  if ← condHolds tvars t.out.condition then do
    let r1 ← runOutFns (engineOf E W t) t.out.funcs data
    let r2 ← formatWith (engineOf E W t) t.out.format r1
    let r3 ← runReturnersE W t r2 t.out.returners t.out.selfFlag
    pure (if r3.1 then r2 else data, { t with out := { t.out with selfFlag := r3.1 } }, r3.2)
  else pure (data, t, [])

/-- `run_outputs`, ttp/ttp.py 988-991, with what the outputs do outside -/
def runTags (E : Engine) (W : OutWorld) (tvars : Dict Str Val) : List OutTag → Val → PyM (Val × List OutTag × List Eff)
  | [], v => pure (v, [], [])
  | t :: ts, v => do
    let (v', t', es) ← runTag E W tvars t v
    let (v'', ts', fs) ← runTags E W tvars ts v'
    pure (v'', t' :: ts', es ++ fs)

end OutFn
end TTP
