import Verif.Model.Outputs
/-!
# The excel formatter and workbooks

Model of `ttp/formatters/excel_formatter.py` and of the part of `ttp/returners/file_returner.py` that saves workbooks. The library openpyxl is
modelled as far as it is used: a workbook is a list of sheets with titles and rows; a cell cannot be a list or a dictionary; which title a new
sheet gets is a parameter (the library changes titles that are taken and rejects some characters). Simplifications: every file that exists at the
path of the workbook is a workbook; changes of the results in place by `key` (C55) are not followed from one tab to the next.
-/

namespace TTP
open Py

namespace OutFn

/-- Sheets of a workbook in order: title and rows. -/
abbrev Book := List (Str × List (List Val))

/-- the file system, as far as workbooks go: the workbook at a path -/
abbrev Books := Str → Option Book

/-- the title of a tab, ttp/formatters/excel_formatter.py 38-42; simplification: a title that is no text raises `TypeError` -/
def tabName (index : Nat) (d : Dict Key Val) : PyM Str :=
  match Dict.get? d (.s c!"tab_name") with
  | some (.str s) => pure s
  | some _ => throw .typeError
  | none => pure (c!"Sheet" ++ natStr index)

/-- headers of a tab, ttp/formatters/excel_formatter.py 43-45 and `headers or []` of table_formatter.py 14 -/
def tabHeaders : Val → PyM (List Key)
  | .str s => pure ((commaList s).map .s)
  | v => optHeaders v

/-- the path of a tab, ttp/formatters/excel_formatter.py 48: a text with dots -/
def tabPath : Val → PyM (List Str)
  | .str s => pure (Format.pathOf s)
  | _ => throw .attributeError

/-- options of the table of a tab, ttp/formatters/excel_formatter.py 43-53; simplification: `key` is a text -/
def tabOpts (d : Dict Key Val) : PyM Format.TableOpts := do
  let headers ← tabHeaders ((Dict.get? d (.s c!"headers")).getD .none)
  let path ← tabPath ((Dict.get? d (.s c!"path")).getD (.str []))
  let key ← MatchFn.reqStr ((Dict.get? d (.s c!"key")).getD (.str []))
  pure ⟨path, (Dict.get? d (.s c!"missing")).getD (.str []), key, ((Dict.get? d (.s c!"strict")).getD (.bool true)).truthy, headers⟩

/-- one tab: title and table with the headers as first row, ttp/formatters/excel_formatter.py 38-56 -/
def tabOf (data : Val) (index : Nat) (d : Dict Key Val) : PyM (Str × List (List Val)) := do
  let name ← tabName index d
  let o ← tabOpts d
  let t ← Format.table o data
  pure (name, t.1.map Format.keyVal :: t.2)

/-- all tabs, ttp/formatters/excel_formatter.py 35-56; simplification: a description that is no dictionary raises `TypeError` -/
def tabsOf (data : Val) : Nat → List Val → PyM (List (Str × List (List Val)))
  | _, [] => pure []
  | i, .dict d :: ds => do
    let t ← tabOf data i d
    let ts ← tabsOf data (i + 1) ds
    pure (t :: ts)
  | _, _ :: _ => throw .typeError

/-- the descriptions afterwards: `tab_name` was taken out, ttp/formatters/excel_formatter.py 38-41 -/
def unnamed : Val → Val
  | .dict d => .dict (Dict.erase d (.s c!"tab_name"))
  | v => v

/-- `ws.append(row)`: openpyxl raises `ValueError` for a cell that is a list or a dictionary -/
def cellOk : Val → Bool
  | .list _ => false
  | .dict _ => false
  | _ => true

/-- `ws.append(row)` for all rows -/
def checkRows (rows : List (List Val)) : PyM Unit :=
  if rows.all (fun r => r.all cellOk) then pure () else throw .valueError

/-- rows below the rows of the first sheet with that title -/
def appendTo (title : Str) (rows : List (List Val)) : Book → Book
  | [] => []
  | s :: b => if s.1 = title then (s.1, s.2 ++ rows) :: b else s :: appendTo title rows b

/-- one tab into the workbook, ttp/formatters/excel_formatter.py 66-76 -/
def putTab (title : List Str → Str → PyM Str) (update : Bool) (b : Book) (t : Str × List (List Val)) : PyM Book :=
  if (b.map Prod.fst).contains t.1 && update then do
    checkRows t.2.tail
    pure (appendTo t.1 t.2.tail b)
  else do
    let n ← title (b.map Prod.fst) t.1
    checkRows t.2
    pure (b ++ [(n, t.2)])

/-- all tabs into the workbook, ttp/formatters/excel_formatter.py 65-76 -/
def putTabs (title : List Str → Str → PyM Str) (update : Bool) : List (Str × List (List Val)) → Book → PyM Book
  | [], b => pure b
  | t :: ts, b => do putTabs title update ts (← putTab title update b t)

/-- `table`, ttp/formatters/excel_formatter.py 19-26; simplification: anything that is no list raises `TypeError` -/
def tableArg : Option Val → PyM (List Val)
  | none => throw .systemExit
  | some (.list ds) => pure ds
  | some _ => throw .typeError

/-- the name of the file that is looked for, ttp/formatters/excel_formatter.py 31-33 -/
def bookName : Option Val → PyM Str
  | some (.str s) => pure (if endsWith s c!".xlsx" then s else s ++ c!".xlsx")
  | _ => throw .attributeError

/-- the workbook that the tabs are added to, ttp/formatters/excel_formatter.py 59-63 -/
def oldBook (files : Books) (update : Bool) (path : Str) : Book := if update then (files path).getD [] else []

/-- `update`, ttp/formatters/excel_formatter.py 27 -/
def updates (attrs : Dict Str Val) : Bool := ((Dict.get? attrs c!"update").getD .none).truthy

/-- `excel_formatter`, ttp/formatters/excel_formatter.py 17-77: the workbook, and the output afterwards -/
def excel (title : List Str → Str → PyM Str) (files : Books) (t : OutTag) (data : Val) : PyM (OutTag × Book) := do
  let ds ← tableArg (Dict.get? t.attrs c!"table")
  let name ← bookName (Dict.get? t.attrs c!"filename")
  let url ← MatchFn.reqStr ((Dict.get? t.attrs c!"url").getD (.str c!"./Output/"))
  let tabs ← tabsOf data 0 ds
  let b ← putTabs title (updates t.attrs) tabs (oldBook files (updates t.attrs) (osJoin url name))
  pure ({ t with attrs := Dict.set t.attrs c!"table" (.list (ds.map unnamed)) }, b)

/-- where the workbook is saved, ttp/returners/file_returner.py 18-43 -/
def savePath (W : OutWorld) (t : OutTag) : PyM Str := do
  let url ← MatchFn.reqStr ((Dict.get? t.attrs c!"url").getD (.str c!"./Output/"))
  let name ← fileName W t
  pure (if endsWith (osJoin url name) c!".xlsx" then osJoin url name else osJoin url name ++ c!".xlsx")

/-- `D.save(path)`, ttp/returners/file_returner.py 43 -/
def saved (files : Books) (path : Str) (b : Book) : Books := fun p => if p = path then some b else files p

/-- An output with format `excel` and returner `file` (ttp/ttp.py 3420-3438): the output and the files afterwards. Simplification: making
the directory is not followed (see `fileReturner`). -/
def runExcel (W : OutWorld) (title : List Str → Str → PyM Str) (files : Books) (t : OutTag) (data : Val) : PyM (OutTag × Books) := do
  let r ← excel title files t data
  let path ← savePath W r.1
  pure (r.1, saved files path r.2)

end OutFn
end TTP
