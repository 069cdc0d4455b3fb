import Verif.Model.Match
/-!
# Output functions and formatters, CSV

Model of `ttp/output/transform.py`, `ttp/output/macro.py`, `ttp/output/is_equal.py`, `ttp/formatters/table_formatter.py`,
`ttp/formatters/csv_formatter.py`, `load_csv` of `ttp/utils/loaders.py`, and of the part of Python's `csv.reader` and
`str.splitlines` that `load_csv` uses. JSON is in Model/Json. Not modelled: the other formatters
(yaml, pprint, tabulate, excel, jinja2, n2g) and the validating output functions.
-/

namespace TTP
open Py

namespace Format
open MatchFn

/-- a key as a value -/
def keyVal : Key → Val
  | .s s => .str s
  | .i n => .int n

/-! ## traverse -/

/-- the loop over the path, ttp/output/transform.py 18-19: `result[i]` raises `KeyError` (no such key) or `TypeError` (not a
dictionary), `result.get(i, {})` raises `AttributeError` on other data -/
def travPath (strict : Bool) : List Str → Val → PyM Val
  | [], v => pure v
  | i :: is, .dict d =>
    match Dict.get? d (.s i) with
    | some v => travPath strict is v
    | none => if strict then throw .keyError else travPath strict is (.dict [])
  | _ :: _, _ => throw (if strict then .typeError else .attributeError)

mutual
/-- `traverse`, ttp/output/transform.py 6-22 -/
def traverse (strict : Bool) (path : List Str) : Val → PyM Val
  | .dict d => travPath strict path (.dict d)
  | .list xs => do pure (.list (← traverseL strict path xs))
  | .none => pure .none
  | .bool b => pure (.bool b)
  | .int n => pure (.int n)
  | .flt t => pure (.flt t)
  | .str s => pure (.str s)
/-- `[traverse(i, path, strict) for i in data]`, ttp/output/transform.py 21 -/
def traverseL (strict : Bool) (path : List Str) : List Val → PyM (List Val)
  | [] => pure []
  | x :: xs => do
    let y ← traverse strict path x
    let ys ← traverseL strict path xs
    pure (y :: ys)
end

/-- a path given as text, ttp/output/transform.py 15-16 -/
def pathOf (path : Str) : List Str := (split ['.'] path).map strip

/-! ## dict_to_list -/

/-- the loop over the items, ttp/output/transform.py 59-63: the items after the loop, which are changed in place, and the
list, or `none` if a value is no dictionary. Simplification: the inner dictionaries are different objects. -/
def dtlLoop (key : Str) : List (Key × Val) → List (Key × Val) × Option (List Val)
  | [] => ([], some [])
  | (k, .dict v) :: kvs =>
    let v' := Dict.set v (.s key) (keyVal k)
    ((k, .dict v') :: (dtlLoop key kvs).1, (dtlLoop key kvs).2.map (.dict v' :: ·))
  | kvs => (kvs, none)

mutual
/-- `dict_to_list` without path, ttp/output/transform.py 45-67: the data after the call (they are changed in place) and the
result -/
def dictToList (key : Str) : Val → Val × Val
  | .dict d =>
    match dtlLoop key d with
    | (d', some xs) => (.dict d', .list xs)
    | (d', none) => (.dict d', .dict d')
  | .list xs => (.list (dictToListL key xs).1, .list (dictToListL key xs).2)
  | .none => (.none, .list [])
  | .bool b => (.bool b, .list [])
  | .int n => (.int n, .list [])
  | .flt t => (.flt t, .list [])
  | .str s => (.str s, .list [])
/-- the recursion over a list, ttp/output/transform.py 66 -/
def dictToListL (key : Str) : List Val → List Val × List Val
  | [] => ([], [])
  | x :: xs => ((dictToList key x).1 :: (dictToListL key xs).1, (dictToList key x).2 :: (dictToListL key xs).2)
end

/-! ## table -/

/-- Attributes of the table formatter, ttp/formatters/table_formatter.py 1; `headers = []` stands for no headers -/
structure TableOpts where
  path : List Str := []
  missing : Val := .str []
  key : Str := []
  strict : Bool := true
  headers : List Key := []

/-- `source_data`, ttp/formatters/table_formatter.py 19-22 -/
def sourceData : Val → List Val
  | .list xs => xs
  | .dict d => [.dict d]
  | _ => []

/-- what one item adds to `data_to_table`, ttp/formatters/table_formatter.py 26-37; `list += dict` adds the keys -/
def itemRows (key : Str) : Val → List Val
  | .list xs => xs
  | .dict [] => []
  | .dict (kv :: d) =>
    if key = [] then [.dict (kv :: d)]
    else match (dictToList key (.dict (kv :: d))).2 with
      | .list xs => xs
      | .dict e => (Dict.keys e).map keyVal
      | _ => []
  | _ => []

/-- `data_to_table`, ttp/formatters/table_formatter.py 24-37 -/
def dataToTable (o : TableOpts) : List Val → PyM (List Val)
  | [] => pure []
  | d :: ds => do
    let item ← traverse o.strict o.path d
    let rest ← dataToTable o ds
    pure (itemRows o.key item ++ rest)

/-- `item.keys()` of all items, ttp/formatters/table_formatter.py 41-42 -/
def allKeys : List Val → PyM (List Key)
  | [] => pure []
  | .dict d :: xs => do
    let ks ← allKeys xs
    pure (Dict.keys d ++ ks)
  | _ :: _ => throw .attributeError

/-- the names among the keys -/
def strKeys (ks : List Key) : List Str := ks.filterMap (fun k => match k with | .s s => some s | .i _ => none)
/-- the numbers among the keys -/
def intKeys (ks : List Key) : List Int := ks.filterMap (fun k => match k with | .i n => some n | .s _ => none)

/-- `sorted(list(headers))` of a set of keys; strings and numbers cannot be compared -/
def sortKeys (ks : List Key) : PyM (List Key) :=
  if intKeys ks = [] then pure ((sorted strLe (strKeys ks)).map .s)
  else if strKeys ks = [] then pure ((sorted (fun a b => decide (a ≤ b)) (intKeys ks)).map .i)
  else throw .typeError

/-- headers, ttp/formatters/table_formatter.py 39-43 -/
def headersOf (headers : List Key) (items : List Val) : PyM (List Key) :=
  if headers.isEmpty then do sortKeys (← allKeys items).eraseDups
  else pure headers

/-- `row[headers.index(k)] = v`, ttp/formatters/table_formatter.py 50-51: the first header equal to the key -/
def putCell (k : Key) (v : Val) : List Key → List Val → List Val
  | h :: hs, c :: cs => if h = k then v :: cs else c :: putCell k v hs cs
  | _, cs => cs

/-- one row, ttp/formatters/table_formatter.py 48-51 -/
def rowOf (headers : List Key) (missing : Val) (d : Dict Key Val) : List Val :=
  d.foldl (fun row kv => putCell kv.1 kv.2 headers row) (headers.map (fun _ => missing))

/-- all rows, ttp/formatters/table_formatter.py 47-52 -/
def rowsOf (headers : List Key) (missing : Val) : List Val → PyM (List (List Val))
  | [] => pure []
  | .dict d :: xs => do
    let rs ← rowsOf headers missing xs
    pure (rowOf headers missing d :: rs)
  | _ :: _ => throw .attributeError

/-- `table`, ttp/formatters/table_formatter.py 1-53: headers and rows -/
def table (o : TableOpts) (data : Val) : PyM (List Key × List (List Val)) := do
  let items ← dataToTable o (sourceData data)
  let hs ← headersOf o.headers items
  let rows ← rowsOf hs o.missing items
  pure (hs, rows)

/-! ## csv -/

/-- `sep.join(headers)`: only of strings -/
def headerStrs : List Key → PyM (List Str)
  | [] => pure []
  | .s s :: ks => do
    let r ← headerStrs ks
    pure (s :: r)
  | .i _ :: _ => throw .typeError

/-- one line, ttp/formatters/csv_formatter.py 15-23: cells as text with the quote around and `quote sep quote` between -/
def csvLine (sep quote : Str) (cells : List Str) : Str := quote ++ join (quote ++ sep ++ quote) cells ++ quote

/-- `csv_formatter` from the table, ttp/formatters/csv_formatter.py 13-24; simplification: quotes with braces, which would be
taken as format fields, are not treated as such -/
def csvText (sep quote : Str) (t : List Key × List (List Val)) : PyM Str := do
  let hs ← headerStrs t.1
  pure (csvLine sep quote hs ++ (t.2.map (fun row => '\n' :: csvLine sep quote (row.map pyStr))).flatten)

/-- `csv_formatter`, ttp/formatters/csv_formatter.py 4-24 -/
def csv (o : TableOpts) (sep quote : Str) (data : Val) : PyM Str := do csvText sep quote (← table o data)

/-! ## Reading CSV -/

/-- line boundaries of `str.splitlines` -/
def isBreak (c : Char) : Bool :=
  let n := c.toNat
  (10 ≤ n && n ≤ 13) || (28 ≤ n && n ≤ 30) || n == 0x85 || n == 0x2028 || n == 0x2029

/-- `splitlines`: `cur` is the current line; the end of the text ends no empty line -/
def splitlinesAux : Str → Str → List Str
  | cur, [] => if cur = [] then [] else [cur]
  | cur, '\r' :: '\n' :: cs => cur :: splitlinesAux [] cs
  | cur, c :: cs => if isBreak c then cur :: splitlinesAux [] cs else splitlinesAux (cur ++ [c]) cs

/-- `s.splitlines()` -/
def splitlines (s : Str) : List Str := splitlinesAux [] s

/-- state of `csv.reader` inside of a line -/
inductive CsvState where
  | start
  | plain
  | quoted
  | closed
  deriving DecidableEq, Repr

/-- One line of `csv.reader` with the default dialect (delimiter `,`, quote character `"`, doubled quotes): state, current cell and
cells so far; at the end of the line the state, which is `quoted` if the cell goes on in the next line. Simplification:
the limit of the field size and NUL characters are ignored. -/
def csvChars : Str → CsvState → Str → List Str → CsvState × Str × List Str
  | [], st, cell, row => (st, cell, row)
  | c :: cs, .quoted, cell, row => if c = '"' then csvChars cs .closed cell row else csvChars cs .quoted (cell ++ [c]) row
  | c :: cs, .closed, cell, row =>
    if c = '"' then csvChars cs .quoted (cell ++ [c]) row
    else if c = ',' then csvChars cs .start [] (row ++ [cell])
    else csvChars cs .plain (cell ++ [c]) row
  | c :: cs, .start, cell, row =>
    if c = '"' then csvChars cs .quoted cell row
    else if c = ',' then csvChars cs .start [] (row ++ [cell])
    else csvChars cs .plain (cell ++ [c]) row
  | c :: cs, .plain, cell, row =>
    if c = ',' then csvChars cs .start [] (row ++ [cell]) else csvChars cs .plain (cell ++ [c]) row

/-- the lines: an empty line at the start of a record is an empty row; an open quote goes on in the next line -/
def csvRows : List Str → CsvState → Str → List Str → List (List Str)
  | [], .quoted, cell, row => [row ++ [cell]]
  | [], _, _, _ => []
  | [] :: ls, .start, _, _ => [] :: csvRows ls .start [] []
  | l :: ls, st, cell, row =>
    match csvChars l st cell row with
    | (.quoted, cell', row') => csvRows ls .quoted cell' row'
    | (_, cell', row') => (row' ++ [cell']) :: csvRows ls .start [] []

/-- `list(reader(iter(lines)))` -/
def csvReader (lines : List Str) : List (List Str) := csvRows lines .start [] []

/-- `{headers[index]: i for index, i in enumerate(row)}`, ttp/utils/loaders.py 288: a row with more cells than headers raises
`IndexError` -/
def rowDict : List Str → List Str → Dict Key Val → PyM (Dict Key Val)
  | _, [], acc => pure acc
  | [], _ :: _, _ => throw .indexError
  | h :: hs, c :: cs, acc => rowDict hs cs (Dict.set acc (.s h) (.str c))

/-- the rows after the headers, ttp/utils/loaders.py 279-289 -/
def csvEntries (headers : List Str) (key : Str) : List (List Str) → Dict Key Val → PyM (Dict Key Val)
  | [], data => pure data
  | [] :: rows, data => csvEntries headers key rows data
  | row :: rows, data => do
    let temp ← rowDict headers row []
    match Dict.get? temp (.s key) with
    | some (.str k) => csvEntries headers key rows (Dict.set data (.s k) (.dict (Dict.erase temp (.s key))))
    | _ => throw .keyError

/-- `load_csv` from the rows, ttp/utils/loaders.py 274-290; `key = []`: no key given -/
def csvTable (key : Str) : List (List Str) → PyM (Dict Key Val)
  | [] => pure []
  | [] :: rows => csvTable key rows
  | (h :: hs) :: rows =>
    if key = [] then csvEntries (h :: hs) h rows []
    else if key ∈ h :: hs then csvEntries (h :: hs) key rows []
    else pure []

/-- `load_csv` of a text, ttp/utils/loaders.py 267-290; included files are in Model/Loaders -/
def loadCsv (key : Str) (text : Str) : PyM (Dict Key Val) := csvTable key (csvReader (splitlines text))

/-! ## Other output functions -/

/-- output `macro`, ttp/output/macro.py 1-8 -/
def outMacro (macros : Dict Str (Val → PyM Val)) (data : Val) (name : Str) : PyM Val :=
  match Dict.get? macros name with
  | none => pure data
  | some f => do
    match ← f data with
    | .none => pure data
    | v => pure v

/-- input `macro`, ttp/input/macro.py 1-12: new data and flag -/
def inMacro (macros : Dict Str (Val → PyM Val)) (data : Val) (name : Str) : PyM (Val × Option Bool) :=
  match Dict.get? macros name with
  | none => pure (data, none)
  | some f => do
    match ← f data with
    | .bool b => pure (data, some b)
    | .none => pure (data, none)
    | v => pure (v, none)

/-- the comparison of `is_equal`, ttp/output/is_equal.py 2-9; `"_anonymous_" in data` is false for lists without this item -/
def isEqual (tagLoad data : Val) : PyM Bool := do
  if ← inData (.str c!"_anonymous_") data then
    match data with
    | .dict d => pure (pyEq ((Dict.get? d (.s c!"_anonymous_")).getD .none) tagLoad)
    | _ => throw .typeError
  else pure (pyEq data tagLoad)

end Format
end TTP
