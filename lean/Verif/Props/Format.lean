import Verif.Proofs.Format
/-!
# C55 - C58, C77: output functions, tables and CSV

`dictToList key data` are the data after the call of `dict_to_list` and its result; `table o data` are the headers and the rows
of the table formatter; `csv o sep quote data` is the text of the csv formatter; `loadCsv key text` is the lookup table of a
CSV text.
-/

namespace Props
open Py Spec TTP TTP.Format

/-! ## C55 -/

/-- C55. A dictionary of dictionaries becomes the list of these, in order, each with its key under the given name. -/
theorem C55_dict_to_list (key : Str) (es : List (Key × Dict Key Val)) :
    (dictToList key (.dict (es.map (fun e => (e.1, .dict e.2))))).2 =
      .list (es.map (fun e => .dict (Dict.set e.2 (.s key) (Spec.keyVal e.1)))) := by
  rw [dictToList_dicts]

/-- C55. Of a list every item is treated this way. -/
theorem C55_of_list (key : Str) (xs : List Val) :
    (dictToList key (.list xs)).2 = .list (xs.map (fun x => (dictToList key x).2)) := by
  rw [dictToList, dictToListL_map]

/-- C55, what does not hold: other data are not returned unchanged - a value that is no dictionary keeps the data as they are,
but entries before it have got their key already; data that are neither dictionary nor list become an empty list. -/
theorem C55_other_shapes :
    (dictToList c!"name" (.dict [(.s c!"a", .dict []), (.s c!"b", .str c!"x")])).2 =
      .dict [(.s c!"a", .dict [(.s c!"name", .str c!"a")]), (.s c!"b", .str c!"x")] ∧
    (dictToList c!"name" (.str c!"text")).2 = .list [] := by
  decide

/-- C55, the part that holds for other shapes: a dictionary whose first value is no dictionary is returned as it is. -/
theorem C55_unchanged_partial (key : Str) (k : Key) (v : Val) (d : Dict Key Val) (hv : ∀ e, v ≠ .dict e) :
    dictToList key (.dict ((k, v) :: d)) = (.dict ((k, v) :: d), .dict ((k, v) :: d)) := by
  rw [dictToList]
  have : dtlLoop key ((k, v) :: d) = ((k, v) :: d, none) := by
    cases v <;> first | rfl | (rename_i e; exact absurd rfl (hv e))
  rw [this]

/-- C55, what does not hold: the data themselves are changed, so that results which are only printed or written to a file get
the keys, too. -/
theorem C55_changes_the_results (key : Str) (es : List (Key × Dict Key Val)) :
    (dictToList key (.dict (es.map (fun e => (e.1, .dict e.2))))).1 =
      .dict (es.map (fun e => (e.1, .dict (Dict.set e.2 (.s key) (Spec.keyVal e.1))))) := by
  rw [dictToList_dicts]

example : (dictToList c!"interface" (.dict [(.s c!"Fa0", .dict [(.s c!"admin", .str c!"down")]), (.s c!"Ge0/1", .dict [])])).2 =
    .list [.dict [(.s c!"admin", .str c!"down"), (.s c!"interface", .str c!"Fa0")], .dict [(.s c!"interface", .str c!"Ge0/1")]] :=
  C55_dict_to_list c!"interface" [(.s c!"Fa0", [(.s c!"admin", .str c!"down")]), (.s c!"Ge0/1", [])]

/-! ## C77 -/

/-- C77. `traverse` gives what the path leads to; for a list, what it leads to from each item. A missing name raises `KeyError`
if strict and otherwise gives an empty dictionary, if it is the last one. -/
theorem C77_traverse (strict : Bool) (path : List Str) :
    (∀ d v, follow path (.dict d) = some v → traverse strict path (.dict d) = .ok v) ∧
    (∀ xs ys, traverseL strict path xs = .ok ys → traverse strict path (.list xs) = .ok (.list ys)) ∧
    (∀ (d e : Dict Key Val) (p : List Str) (n : Str), path = p ++ [n] → follow p (.dict d) = some (.dict e) → Dict.get? e (.s n) = none →
      traverse strict path (.dict d) = if strict then .error .keyError else .ok (.dict [])) := by
  refine ⟨?_, ?_, ?_⟩
  · intro d v h; rw [traverse]; exact travPath_follow _ _ _ _ h
  · intro xs ys h; rw [traverse, h]; rfl
  · intro d e p n hp h1 h2
    subst hp
    rw [traverse]
    generalize Val.dict d = v at h1
    induction p generalizing v with
    | nil =>
      simp only [follow, Option.some.injEq] at h1
      subst h1
      simp only [List.nil_append, travPath, h2]
      cases strict <;> rfl
    | cons k p ih =>
      cases v with
      | dict d =>
        simp only [follow] at h1
        cases hg : Dict.get? d (.s k) with
        | none => simp [hg] at h1
        | some x =>
          simp only [hg, Option.bind_some] at h1
          simp only [List.cons_append, travPath, hg]
          exact ih x h1
      | _ => simp [follow] at h1

/-! ## C56 -/

/-- C56. For results that lead along the path to the records `items`: the table has one row for every record, in order; every row
is as wide as the header; the cell under a header (the first of its name) is the value of the record or the missing value. The
headers are the given ones, or the names of all variables of the records, sorted and without repetition. -/
theorem C56_table (o : TableOpts) (ds : List Val) (items : List (Dict Key Val)) (h : RecordsIn o.path o.key ds items)
    (hw : ∀ d ∈ items, Dict.WF d) (hk : o.headers = [] → ∀ d ∈ items, ∀ k ∈ Dict.keys d, ∃ s, k = Key.s s) :
    ∃ hs rows, table o (.list ds) = .ok (hs, rows) ∧
      (o.headers ≠ [] → hs = o.headers) ∧
      (o.headers = [] → ∃ names : List Str, hs = names.map Key.s ∧ names.Pairwise (· < ·) ∧ ∀ n, n ∈ names ↔ ∃ d ∈ items, valueOf d n ≠ none) ∧
      rows.length = items.length ∧
      ∀ (i : Nat) row item, rows[i]? = some row → items[i]? = some item →
        row.length = hs.length ∧
        ∀ (j : Nat) hd, hs[j]? = some hd → hd ∉ hs.take j → row[j]? = some ((Dict.get? item hd).getD o.missing) := by
  have hH : ∃ hs, headersOf o.headers (items.map .dict) = .ok hs ∧ (o.headers ≠ [] → hs = o.headers) ∧
      (o.headers = [] → ∃ names : List Str, hs = names.map Key.s ∧ names.Pairwise (· < ·) ∧ ∀ n, n ∈ names ↔ ∃ d ∈ items, valueOf d n ≠ none) := by
    cases ho : o.headers with
    | nil =>
      obtain ⟨names, h1, h2, h3⟩ := headersOf_computed items (hk ho)
      refine ⟨_, h1, fun e => absurd rfl e, fun _ => ⟨names, rfl, h2, fun n => ?_⟩⟩
      rw [h3 n]
      unfold valueOf
      constructor
      · rintro ⟨d, hd, hm⟩
        exact ⟨d, hd, fun e => (Dict.get?_eq_none_iff d _).1 e hm⟩
      · rintro ⟨d, hd, hm⟩
        refine ⟨d, hd, ?_⟩
        by_cases hm2 : Key.s n ∈ Dict.keys d
        · exact hm2
        · exact absurd ((Dict.get?_eq_none_iff d _).2 hm2) hm
    | cons a b => exact ⟨a :: b, rfl, fun _ => rfl, fun e => by cases e⟩
  obtain ⟨hs, h1, h2, h3⟩ := hH
  refine ⟨hs, items.map (rowOf hs o.missing), ?_, h2, h3, by simp, ?_⟩
  · unfold table
    show (do let items ← dataToTable o ds; _ : PyM _) = _
    rw [dataToTable_spec o ds items h, ok_bind, h1, ok_bind, rowsOf_dicts]; rfl
  · intro i row item hr hi
    rw [List.getElem?_map, hi] at hr
    simp only [Option.map_some, Option.some.injEq] at hr
    subst hr
    exact rowOf_spec hs o.missing item (hw item (List.mem_of_getElem? hi))

/-- C56. Results that are one dictionary are treated like a list with it. -/
theorem C56_dict_is_list (o : TableOpts) (d : Dict Key Val) : table o (.dict d) = table o (.list [.dict d]) := rfl

/-- results of two inputs with interfaces at a path, for the examples -/
def Ex.twoInputs : List Val :=
  [.dict [(.s c!"ints", .list [.dict [(.s c!"name", .str c!"Lo0"), (.s c!"ip", .str c!"1.1.1.1")], .dict [(.s c!"name", .str c!"Lo1")]])],
   .dict [(.s c!"ints", .dict [(.s c!"vrf", .str c!"A"), (.s c!"name", .str c!"Lo2")])]]

theorem Ex.twoInputs_records : RecordsIn [c!"ints"] [] Ex.twoInputs
    [[(.s c!"name", .str c!"Lo0"), (.s c!"ip", .str c!"1.1.1.1")], [(.s c!"name", .str c!"Lo1")], [(.s c!"vrf", .str c!"A"), (.s c!"name", .str c!"Lo2")]] :=
  RecordsIn.cons _ _ [_, _] _ _ rfl (RecordsOf.list [_, _])
    (RecordsIn.cons _ _ [_] _ _ rfl (RecordsOf.one _ (by simp) rfl) RecordsIn.nil)

/-- the conditions can be met, and the table is the expected one -/
example : table { path := [c!"ints"] } (.list Ex.twoInputs) =
    .ok ([.s c!"ip", .s c!"name", .s c!"vrf"],
      [[.str c!"1.1.1.1", .str c!"Lo0", .str []], [.str [], .str c!"Lo1", .str []], [.str [], .str c!"Lo2", .str c!"A"]]) := by
  decide +kernel

/-- What the table formatter does otherwise: with a key, a dictionary that has a value which is no dictionary raises
`AttributeError`; a header given twice has the value only in its first column. -/
theorem C56_other (v : Str) :
    table { key := c!"name" } (.dict [(.s c!"a", .dict []), (.s c!"b", .str c!"x")]) = .error .attributeError ∧
    table { headers := [.s c!"a", .s c!"a"] } (.dict [(.s c!"a", .str v)]) = .ok ([.s c!"a", .s c!"a"], [[.str v, .str []]]) := by
  constructor
  · decide
  · rfl

/-! ## C57 -/

/-- C57. If no cell has the quote character, then reading the text of the csv formatter gives back the table: the headers and
the text of all cells - whatever else is in the cells, separators and newlines included. -/
theorem C57_csv_round_trip (o : TableOpts) (sep quote : Char) (hsq : sep ≠ quote) (hs : sep ≠ '\n') (hq : quote ≠ '\n') (data : Val)
    (names : List Str) (rows : List (List Val)) (ht : table o data = .ok (names.map Key.s, rows)) (hn : names ≠ [])
    (hc : ∀ n ∈ names, quote ∉ n) (hr : ∀ row ∈ rows, row ≠ [] ∧ ∀ c ∈ row, quote ∉ pyStr c) :
    ∃ text, csv o [sep] [quote] data = .ok text ∧ readCsv sep quote text = names :: rows.map (fun row => row.map pyStr) := by
  refine ⟨_, by unfold csv csvText; rw [ht, ok_bind, headerStrs_names]; rfl, ?_⟩
  have h := read_text sep quote hsq hs hq names (rows.map (fun row => row.map pyStr)) ?_ ?_
  · rw [List.map_map] at h
    exact h
  · intro x hx
    rcases List.mem_cons.1 hx with rfl | hx
    · exact hn
    · obtain ⟨row, hrow, rfl⟩ := List.mem_map.1 hx
      simpa using (hr row hrow).1
  · intro x hx w hw
    rcases List.mem_cons.1 hx with rfl | hx
    · exact hc w hw
    · obtain ⟨row, hrow, rfl⟩ := List.mem_map.1 hx
      obtain ⟨c, hc2, rfl⟩ := List.mem_map.1 hw
      exact (hr row hrow).2 c hc2

/-- C57. The text of a cell that is a string is the string. -/
theorem C57_string_cells (s : Str) : pyStr (.str s) = s := rfl

/-- C57, what does not hold: quotes in cells are not doubled, so that one cell can be read back as two. -/
theorem C57_quotes_not_escaped :
    ∃ text, csv {} c!"," c!"\"" (.list [.dict [(.s c!"a", .str c!"x\",\"y")]]) = .ok text ∧
      readCsv ',' '"' text = [[c!"a"], [c!"x", c!"y"]] := ⟨c!"\"a\"\n\"x\",\"y\"", by decide +kernel, by decide +kernel⟩

example : ∃ text, csv { path := [c!"ints"] } c!"," c!"\"" (.list Ex.twoInputs) = .ok text ∧
    readCsv ',' '"' text = [[c!"ip", c!"name", c!"vrf"], [c!"1.1.1.1", c!"Lo0", []], [[], c!"Lo1", []], [[], c!"Lo2", c!"A"]] :=
  C57_csv_round_trip { path := [c!"ints"] } ',' '"' (by decide) (by decide) (by decide) _ [c!"ip", c!"name", c!"vrf"]
    [[.str c!"1.1.1.1", .str c!"Lo0", .str []], [.str [], .str c!"Lo1", .str []], [.str [], .str c!"Lo2", .str c!"A"]]
    (by decide +kernel) (by decide) (by decide) (by decide)

/-! ## C58 -/

/-- C58. A CSV table whose rows all have as many cells as there are different headers: `load_csv` maps the cell in the key column
to the other cells of the row, by header; of several rows with the same key the last one counts; there are no other entries. -/
theorem C58_load_csv (text : Str) (headers : List Str) (rows : List (List Str)) (ht : csvReader (splitlines text) = headers :: rows)
    (hnd : headers.Nodup) (hl : ∀ r ∈ rows, r.length = headers.length) (key : Str) (hk : key ∈ headers) (hne : key ≠ []) :
    ∃ e, loadCsv key text = .ok e ∧
      (∀ k, Dict.get? e (.s k) = ((rows.filter (fun r => decide (cellOf headers r key = some k))).getLast?).map
        (fun r => .dict (otherCells headers r key))) ∧
      ∀ q ∈ Dict.keys e, ∃ k, q = .s k := by
  obtain ⟨e, h1, h2, h3⟩ := csvEntries_spec headers hnd key hk rows hl []
  refine ⟨e, ?_, ?_, ?_⟩
  · unfold loadCsv
    rw [ht]
    cases headers with
    | nil => cases hk
    | cons h hs =>
      rw [csvTable, if_neg hne, if_pos hk]
      exact h1
  · intro k
    rw [h2 k]
    cases (rows.filter (fun r => decide (cellOf headers r key = some k))).getLast? <;> rfl
  · intro q hq
    rcases h3 q hq with h | ⟨_, _, k, h, _⟩
    · cases h
    · exact ⟨k, h⟩

/-- C58. Without key the first column is used; a key that is no header gives an empty table. -/
theorem C58_key_column (text : Str) (h : Str) (hs : List Str) (rows : List (List Str))
    (ht : csvReader (splitlines text) = (h :: hs) :: rows) :
    (h ≠ [] → loadCsv [] text = loadCsv h text) ∧ (∀ key, key ≠ [] → key ∉ h :: hs → loadCsv key text = .ok []) := by
  unfold loadCsv
  rw [ht]
  constructor
  · intro hh
    rw [csvTable, csvTable, if_pos rfl, if_neg hh, if_pos (by simp)]
  · intro key h1 h2
    rw [csvTable, if_neg h1, if_neg h2]; rfl

/-- C58. What the csv formatter writes, `load_csv` reads: for a table with cells without quotes and line breaks the entry of every
key is the last row with it, by header. -/
theorem C58_csv_into_lookup (o : TableOpts) (data : Val) (names : List Str) (rows : List (List Val))
    (ht : table o data = .ok (names.map Key.s, rows)) (hnd : names.Nodup) (key : Str) (hk : key ∈ names) (hne : key ≠ [])
    (hw : ∀ row ∈ rows, row.length = names.length) (hc : ∀ n ∈ names, ∀ c ∈ n, c ≠ '"' ∧ isBreak c = false)
    (hr : ∀ row ∈ rows, ∀ v ∈ row, ∀ c ∈ pyStr v, c ≠ '"' ∧ isBreak c = false) :
    ∃ text e, csv o c!"," c!"\"" data = .ok text ∧ loadCsv key text = .ok e ∧
      ∀ k, Dict.get? e (.s k) = (((rows.map (fun row => row.map pyStr)).filter (fun r => decide (cellOf names r key = some k))).getLast?).map
        (fun r => .dict (otherCells names r key)) := by
  have hpos : 0 < names.length := List.length_pos_iff.2 (by rintro rfl; cases hk)
  have hread : csvReader (splitlines (csvLine [','] ['"'] names ++ ((rows.map (fun row => row.map pyStr)).map (fun row => '\n' :: csvLine [','] ['"'] row)).flatten)) =
      names :: rows.map (fun row => row.map pyStr) := by
    apply reader_text
    · intro x hx
      rcases List.mem_cons.1 hx with rfl | hx
      · exact List.length_pos_iff.1 hpos
      · obtain ⟨row, hrow, rfl⟩ := List.mem_map.1 hx
        have := hw row hrow
        apply List.length_pos_iff.1
        rw [List.length_map]; omega
    · intro x hx w hw' c hc'
      rcases List.mem_cons.1 hx with rfl | hx
      · exact hc w hw' c hc'
      · obtain ⟨row, hrow, rfl⟩ := List.mem_map.1 hx
        obtain ⟨v, hv, rfl⟩ := List.mem_map.1 hw'
        exact hr row hrow v hv c hc'
  obtain ⟨e, h1, h2, _⟩ := C58_load_csv _ names (rows.map (fun row => row.map pyStr)) hread hnd
    (by intro r hr'; obtain ⟨row, hrow, rfl⟩ := List.mem_map.1 hr'; simpa using hw row hrow) key hk hne
  refine ⟨_, e, ?_, h1, h2⟩
  unfold csv csvText
  rw [ht, ok_bind, headerStrs_names, List.map_map]
  rfl

/-- What happens with rows of another length: a longer row raises `IndexError`, a row without the key column `KeyError`, and a
shorter row with it has fewer fields. -/
theorem C58_ragged_rows :
    loadCsv c!"a" c!"a,b\n1,2,3" = .error .indexError ∧ loadCsv c!"b" c!"a,b\n1" = .error .keyError ∧
    loadCsv c!"a" c!"a,b\n1" = .ok [(.s c!"1", .dict [])] := by decide +kernel

example : csvReader (splitlines c!"name,ip\nLo0,1.1.1.1\n\"Lo,1\",\"2\"\"2\"") =
    [c!"name", c!"ip"] :: [[c!"Lo0", c!"1.1.1.1"], [c!"Lo,1", c!"2\"2"]] := by decide +kernel

end Props
