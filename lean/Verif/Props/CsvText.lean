import Verif.Props.Format
import Verif.Proofs.Csv
/-!
# C58: CSV texts

`Format.loadCsv key text` is what the loader `csv` makes of a text, `CsvText` (Spec/Csv) the grammar of such texts.
-/

namespace Props
open Py Spec TTP TTP.Format

/-- C58. A CSV text (cells in quotes or not, lines ended by `\n` or `\r\n`, empty lines anywhere) whose rows all have as many cells as there are
different headers: `load_csv` maps the cell in the key column to the other cells of the row, by header; of several rows with the same key the
last one counts; there are no other entries. -/
theorem C58_load_csv_text (text : Str) (headers : List Str) (rows : List (List Str)) (ht : CsvText text (headers :: rows))
    (hnd : headers.Nodup) (hl : ∀ r ∈ rows, r.length = headers.length) (key : Str) (hk : key ∈ headers) (hne : key ≠ []) :
    ∃ e, loadCsv key text = .ok e ∧
      (∀ k, Dict.get? e (.s k) = ((rows.filter (fun r => decide (cellOf headers r key = some k))).getLast?).map
        (fun r => .dict (otherCells headers r key))) ∧
      ∀ q ∈ Dict.keys e, ∃ k, q = .s k := by
  obtain ⟨e, h1, h2, h3⟩ := csvEntries_spec headers hnd key hk rows hl []
  refine ⟨e, ?_, ?_, ?_⟩
  · rw [loadCsv_text key ht]
    cases headers with
    | nil => cases hk
    | cons h hs =>
      rw [csvTable, if_neg hne, if_pos hk]
      exact h1
  · intro k
    rw [h2 k]
    cases (rows.filter (fun r => decide (cellOf headers r key = some k))).getLast? <;> rfl
  · intro q hq
    rcases h3 q hq with h | ⟨_, _, k, h, _⟩
    · cases h
    · exact ⟨k, h⟩

/-- C58. Without key the first column is used; a key that is no header gives an empty table. -/
theorem C58_key_column_text (text : Str) (h : Str) (hs : List Str) (rows : List (List Str)) (ht : CsvText text ((h :: hs) :: rows)) :
    (h ≠ [] → loadCsv [] text = loadCsv h text) ∧ (∀ key, key ≠ [] → key ∉ h :: hs → loadCsv key text = .ok []) := by
  constructor
  · intro hh
    rw [loadCsv_text _ ht, loadCsv_text _ ht, csvTable, csvTable, if_pos rfl, if_neg hh, if_pos (by simp)]
  · intro key h1 h2
    rw [loadCsv_text _ ht, csvTable, if_neg h1, if_neg h2]; rfl

/-- C58, what does not hold: a line end inside quotes is lost, because the text is cut into lines without their ends. -/
theorem C58_line_break_lost :
    loadCsv c!"a" c!"a,b\n1,\"x\ny\"" = .ok [(.s c!"1", .dict [(.s c!"b", .str c!"xy")])] := by decide +kernel

/-- the witness of C58_load_csv_text: two lines, an empty line between, quotes, another line end -/
theorem Ex.csvWitness : CsvText c!"name,ip\n\nLo0,1.1.1.1\r\n\"Lo,1\",\"2\"\"2\"" [[c!"name", c!"ip"], [c!"Lo0", c!"1.1.1.1"], [c!"Lo,1", c!"2\"2"]] := by
  have one : ∀ l : Str, (l.all (fun c => !lineBreaks.contains c)) = true → OneLine l := by
    intro l h c hc hm
    have := List.all_eq_true.1 h c hc
    simp [hm] at this
  refine .line (l := c!"name,ip") (e := c!"\n") (one _ (by decide)) (by decide) ?_ (.inl rfl)
    (.blank (e := c!"\n") (.inl rfl) (.line (l := c!"Lo0,1.1.1.1") (e := c!"\r\n") (one _ (by decide)) (by decide) ?_ (.inr rfl)
      (.last (one _ (by decide)) (by decide) ?_)))
  · exact .cons (t := c!"name") (.plain _ (by decide) (by intro r h; cases h)) (.one (.plain _ (by decide) (by intro r h; cases h)))
  · exact .cons (t := c!"Lo0") (.plain _ (by decide) (by intro r h; cases h)) (.one (.plain _ (by decide) (by intro r h; cases h)))
  · refine .cons (t := c!"\"Lo,1\"") (q := c!"\"2\"\"2\"") ?_ (.one ?_)
    · exact .quoted (b := c!"Lo,1") (.char _ (by decide) (.char _ (by decide) (.char _ (by decide) (.char _ (by decide) .nil))))
    · exact .quoted (b := c!"2\"\"2") (.char _ (by decide) (.quote (.char _ (by decide) .nil)))

example : ∃ e, loadCsv c!"ip" c!"name,ip\n\nLo0,1.1.1.1\r\n\"Lo,1\",\"2\"\"2\"" = .ok e ∧ valueOf e c!"2\"2" = some (.dict [(.s c!"name", .str c!"Lo,1")]) := by
  obtain ⟨e, h1, h2, _⟩ := C58_load_csv_text _ _ _ Ex.csvWitness (by decide) (by decide) c!"ip" (by decide) (by decide)
  exact ⟨e, h1, by rw [valueOf, h2]; decide +kernel⟩

end Props
