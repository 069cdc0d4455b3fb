import Verif.Spec.Group
/-!
# Specification vocabulary: tables and CSV
-/

namespace Spec
open Py

/-- a key as a value -/
def keyVal : Key → Val
  | .s s => .str s
  | .i n => .int n

/-- the records that a value at the path stands for: the records of a list; one record; or - if a name for the keys is given -
the entries of a dictionary of dictionaries, each with its key under that name -/
inductive RecordsOf (key : Str) : Val → List (Dict Key Val) → Prop
  | list (items : List (Dict Key Val)) : RecordsOf key (.list (items.map .dict)) items
  | empty : RecordsOf key (.dict []) []
  | one (d : Dict Key Val) : d ≠ [] → key = [] → RecordsOf key (.dict d) [d]
  | entries (es : List (Key × Dict Key Val)) : es ≠ [] → key ≠ [] →
      RecordsOf key (.dict (es.map (fun e => (e.1, .dict e.2)))) (es.map (fun e => Dict.set e.2 (.s key) (keyVal e.1)))

/-- the records at the path in a list of results, in order -/
inductive RecordsIn (path : List Str) (key : Str) : List Val → List (Dict Key Val) → Prop
  | nil : RecordsIn path key [] []
  | cons (d : Dict Key Val) (v : Val) (its rest : List (Dict Key Val)) (ds : List Val) :
      follow path (.dict d) = some v → RecordsOf key v its → RecordsIn path key ds rest →
      RecordsIn path key (.dict d :: ds) (its ++ rest)

/-- state of a reader of CSV text -/
inductive CsvAt where
  | start
  | plain
  | quoted
  | closed

/-- A reader of CSV text: cells are separated by `sep`, rows by newlines; a cell can be put in quotes, then separators and
newlines belong to the cell, and a doubled quote stands for one. -/
def readCsvAux (sep quote : Char) : Str → CsvAt → Str → List Str → List (List Str)
  | [], _, cell, row => [row ++ [cell]]
  | c :: cs, .quoted, cell, row =>
    if c = quote then readCsvAux sep quote cs .closed cell row else readCsvAux sep quote cs .quoted (cell ++ [c]) row
  | c :: cs, .closed, cell, row =>
    if c = quote then readCsvAux sep quote cs .quoted (cell ++ [c]) row
    else if c = sep then readCsvAux sep quote cs .start [] (row ++ [cell])
    else if c = '\n' then (row ++ [cell]) :: readCsvAux sep quote cs .start [] []
    else readCsvAux sep quote cs .plain (cell ++ [c]) row
  | c :: cs, .start, cell, row =>
    if c = quote then readCsvAux sep quote cs .quoted cell row
    else if c = sep then readCsvAux sep quote cs .start [] (row ++ [cell])
    else if c = '\n' then (row ++ [cell]) :: readCsvAux sep quote cs .start [] []
    else readCsvAux sep quote cs .plain (cell ++ [c]) row
  | c :: cs, .plain, cell, row =>
    if c = sep then readCsvAux sep quote cs .start [] (row ++ [cell])
    else if c = '\n' then (row ++ [cell]) :: readCsvAux sep quote cs .start [] []
    else readCsvAux sep quote cs .plain (cell ++ [c]) row

/-- the table in a CSV text -/
def readCsv (sep quote : Char) (s : Str) : List (List Str) := readCsvAux sep quote s .start [] []

/-- the cell of a row under a header -/
def cellOf (headers row : List Str) (h : Str) : Option Str := (headers.zip row).lookup h

/-- the cells of a row under the other headers, as a dictionary -/
def otherCells (headers row : List Str) (h : Str) : Dict Key Val :=
  ((headers.zip row).filter (fun c => decide (c.1 ≠ h))).map (fun c => (Key.s c.1, Val.str c.2))

end Spec
