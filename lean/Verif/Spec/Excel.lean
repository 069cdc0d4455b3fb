import Verif.Spec.Outputs
import Verif.Model.Excel
/-!
# Specification: workbooks

From the model: the types of outputs, files and workbooks, and the `table` formatter (whose rows are spelled out by C56).
-/

namespace Spec
open Py TTP OutFn

/-- A tab: title, headers, rows. -/
structure XTab where
  title : Str
  headers : List Key
  rows : List (List Val)

/-- the column names of a tab: nothing, a text with commas, or a list -/
inductive TabHeaders : Option Val → List Key → Prop
  | nothing : TabHeaders none []
  | none : TabHeaders (some .none) []
  | text (s : Str) : TabHeaders (some (.str s)) ((splitC ',' s).map (fun n => Key.s (strip n)))
  | names (ks : List Key) : TabHeaders (some (.list (ks.map keyVal))) ks

/-- The tab with number `i` and description `d` is `t`: title `tab_name` or `Sheet` and the number; the table of the results at the path, with
the options of the description. -/
structure TabIs (data : Val) (i : Nat) (d : Dict Key Val) (t : XTab) : Prop where
  title : Dict.get? d (.s c!"tab_name") = some (.str t.title) ∨ (Dict.get? d (.s c!"tab_name") = none ∧ t.title = c!"Sheet" ++ natStr i)
  table : ∃ o : Format.TableOpts, Format.table o data = .ok (t.headers, t.rows) ∧
    (∃ p, (Dict.get? d (.s c!"path")).getD (.str []) = .str p ∧ o.path = (splitC '.' p).map strip) ∧
    TabHeaders (Dict.get? d (.s c!"headers")) o.headers ∧
    o.missing = (Dict.get? d (.s c!"missing")).getD (.str []) ∧
    (Dict.get? d (.s c!"key")).getD (.str []) = .str o.key ∧
    (o.strict = true ↔ ((Dict.get? d (.s c!"strict")).getD (.bool true)).truthy = true)

/-- the tabs of the descriptions, numbered from `i` -/
inductive TabsAre (data : Val) : Nat → List Val → List XTab → Prop
  | nil (i : Nat) : TabsAre data i [] []
  | cons {i : Nat} {d : Dict Key Val} {ds : List Val} {t : XTab} {ts : List XTab} : TabIs data i d t → TabsAre data (i + 1) ds ts →
      TabsAre data i (.dict d :: ds) (t :: ts)

/-- cells that a sheet can have -/
def SimpleCell : Val → Prop
  | .list _ => False
  | .dict _ => False
  | _ => True

/-- the workbook `new` is `old` with these tabs: the sheets that were there come first, each with the rows of the tab of its title (without
the headers) below its rows; then the other tabs in order, with headers and rows -/
structure BookWith (old : Book) (tabs : List XTab) (new : Book) : Prop where
  titles : new.map Prod.fst = old.map Prod.fst ++ (tabs.map XTab.title).filter (fun n => decide (n ∉ old.map Prod.fst))
  kept : ∀ s ∈ old, s.1 ∉ tabs.map XTab.title → s ∈ new
  below : ∀ s ∈ old, ∀ t ∈ tabs, t.title = s.1 → (s.1, s.2 ++ t.rows) ∈ new
  added : ∀ t ∈ tabs, t.title ∉ old.map Prod.fst → (t.title, t.headers.map keyVal :: t.rows) ∈ new

/-- the file name with its extension -/
def withXlsx (f : Str) : Str := if c!".xlsx" <:+ f then f else f ++ c!".xlsx"

end Spec
