import Verif.Proofs.Format
import Verif.Spec.Csv
/-!
# Reading CSV texts
-/

namespace TTP.Format
open Py Spec

theorem isBreak_false {c : Char} (h : c ∉ lineBreaks) : isBreak c = false := by
  cases hb : isBreak c with
  | false => rfl
  | true =>
    exfalso
    apply h
    have hv : c = Char.ofNat c.toNat := (Char.ofNat_toNat c).symm
    unfold isBreak at hb
    simp only [Bool.or_eq_true, Bool.and_eq_true, decide_eq_true_eq, beq_iff_eq] at hb
    generalize hn : c.toNat = n at hb hv
    rw [hv]
    rcases hb with (((⟨h1, h2⟩ | ⟨h1, h2⟩) | h1) | h1) | h1
    · have : n = 10 ∨ n = 11 ∨ n = 12 ∨ n = 13 := by omega
      rcases this with rfl | rfl | rfl | rfl <;> decide
    · have : n = 28 ∨ n = 29 ∨ n = 30 := by omega
      rcases this with rfl | rfl | rfl <;> decide
    · subst h1; decide
    · subst h1; decide
    · subst h1; decide

theorem oneLine_break {l : Str} (h : OneLine l) : ∀ c ∈ l, isBreak c = false := fun c hc => isBreak_false (h c hc)

theorem splitlinesAux_crlf (cur l rest : Str) (h : ∀ c ∈ l, isBreak c = false) :
    splitlinesAux cur (l ++ '\r' :: '\n' :: rest) = (cur ++ l) :: splitlinesAux [] rest := by
  induction l generalizing cur with
  | nil => rw [List.nil_append, List.append_nil, splitlinesAux]
  | cons c l ih =>
    have hc : isBreak c = false := h c (by simp)
    have step : splitlinesAux cur (c :: (l ++ '\r' :: '\n' :: rest)) = splitlinesAux (cur ++ [c]) (l ++ '\r' :: '\n' :: rest) := by
      rw [splitlinesAux, if_neg (by rw [hc]; decide)]
      intro cs e _
      subst e
      exact absurd hc (by decide)
    rw [List.cons_append, step, ih _ (fun x hx => h x (by simp [hx]))]
    simp

theorem splitlines_line {l e : Str} (h : OneLine l) (he : LineEnd e) (q : Str) : splitlines (l ++ (e ++ q)) = l :: splitlines q := by
  unfold splitlines
  rcases he with rfl | rfl
  · have := splitlinesAux_break [] l q (oneLine_break h)
    simpa using this
  · have := splitlinesAux_crlf [] l q (oneLine_break h)
    simpa using this

theorem splitlines_last {l : Str} (h : OneLine l) (hn : l ≠ []) : splitlines l = [l] := by
  have := splitlinesAux_end [] l (oneLine_break h) (by simpa using hn)
  simpa [splitlines] using this

theorem chars_in_quotes {b s : Str} (h : CsvQuoted b s) (r : Str) (cell : Str) (row : List Str) :
    csvChars (b ++ '"' :: r) .quoted cell row = csvChars r .closed (cell ++ s) row := by
  induction h generalizing cell with
  | nil => rw [List.nil_append, csvChars, if_pos rfl, List.append_nil]
  | char c hc _ ih => rw [List.cons_append, csvChars, if_neg hc, ih]; simp
  | quote _ ih =>
    rw [List.cons_append, List.cons_append, csvChars, if_pos rfl, csvChars, if_pos rfl, ih]; simp

theorem chars_plain {s : Str} (h : ',' ∉ s) (r cell : Str) (row : List Str) :
    csvChars (s ++ r) .plain cell row = csvChars r .plain (cell ++ s) row := by
  induction s generalizing cell with
  | nil => simp
  | cons c s ih =>
    have hc : c ≠ ',' := fun e => h (by simp [e])
    rw [List.cons_append, csvChars, if_neg hc, ih (fun hm => h (by simp [hm]))]; simp

theorem chars_cell {t s : Str} (h : CsvCell t s) (row : List Str) :
    (∀ q, csvChars (t ++ ',' :: q) .start [] row = csvChars q .start [] (row ++ [s])) ∧
    ∃ st, st ≠ CsvState.quoted ∧ csvChars t .start [] row = (st, s, row) := by
  cases h with
  | plain _ h1 h2 =>
    cases t with
    | nil =>
      refine ⟨fun q => ?_, .start, by decide, rfl⟩
      rw [List.nil_append, csvChars, if_neg (by decide), if_pos rfl]
    | cons c t =>
      have hc : c ≠ '"' := fun e => h2 t (by rw [e])
      have hc' : c ≠ ',' := fun e => h1 (by simp [e])
      have ht : ',' ∉ t := fun hm => h1 (by simp [hm])
      constructor
      · intro q
        rw [List.cons_append, csvChars, if_neg hc, if_neg hc', chars_plain ht, csvChars, if_pos rfl]; rfl
      · refine ⟨.plain, by decide, ?_⟩
        have := chars_plain ht [] ([] ++ [c]) row
        rw [List.append_nil] at this
        rw [csvChars, if_neg hc, if_neg hc', this]; rfl
  | quoted hq =>
    rename_i b
    constructor
    · intro q
      rw [List.cons_append, csvChars, if_pos rfl, List.append_assoc, List.cons_append, List.nil_append, chars_in_quotes hq, csvChars,
        if_neg (by decide), if_pos rfl]; rfl
    · refine ⟨.closed, by decide, ?_⟩
      rw [csvChars, if_pos rfl, chars_in_quotes hq, csvChars]; rfl

theorem chars_csvLine {t : Str} {cs : List Str} (h : CsvLine t cs) : ∀ row : List Str, ∃ st cell init, st ≠ CsvState.quoted ∧
    csvChars t .start [] row = (st, cell, row ++ init) ∧ init ++ [cell] = cs := by
  induction h with
  | one hc =>
    intro row
    obtain ⟨st, h1, h2⟩ := (chars_cell hc row).2
    exact ⟨st, _, [], h1, by rw [h2, List.append_nil], rfl⟩
  | cons hc _ ih =>
    rename_i t s q cs _
    intro row
    obtain ⟨st, cell, init, h1, h2, h3⟩ := ih (row ++ [s])
    refine ⟨st, cell, s :: init, h1, ?_, by rw [List.cons_append, h3]⟩
    rw [(chars_cell hc row).1, h2]; simp

theorem csvRows_line {l : Str} {cs : List Str} (hn : l ≠ []) (h : CsvLine l cs) (ls : List Str) : csvRows (l :: ls) .start [] [] = cs :: csvRows ls .start [] [] := by
  obtain ⟨st, cell, init, h1, h2, h3⟩ := chars_csvLine h []
  cases l with
  | nil => exact absurd rfl hn
  | cons c l =>
    rw [csvRows, h2]
    · cases st with
      | quoted => exact absurd rfl h1
      | start => simp [h3]
      | plain => simp [h3]
      | closed => simp [h3]
    · intro _ h; cases h

/-- what a CSV text contains is what the reader reads, apart from empty rows -/
theorem csvReader_text {t : Str} {rows : List (List Str)} (h : CsvText t rows) : (csvReader (splitlines t)).filter (fun r => !r.isEmpty) = rows := by
  have hne : ∀ {l : Str} {cs : List Str}, CsvLine l cs → cs.isEmpty = false := by
    intro l cs h; cases h <;> rfl
  induction h with
  | nil => rfl
  | last h1 h2 h3 =>
    rw [splitlines_last h1 h2, csvReader, csvRows_line h2 h3]
    simp [csvRows, hne h3]
  | line h1 h2 h3 h4 _ ih =>
    rw [splitlines_line h1 h4, csvReader, csvRows_line h2 h3, List.filter_cons, hne h3]
    simp only [Bool.not_false, if_true]
    rw [← csvReader, ih]
  | blank h1 _ ih =>
    rename_i e q rows _
    have := splitlines_line (l := []) (fun c hc => by cases hc) h1 q
    rw [List.nil_append] at this
    rw [this, csvReader, csvRows, List.filter_cons]
    simp only [List.isEmpty_nil, Bool.not_true, Bool.false_eq_true, if_false]
    exact ih

theorem csvEntries_filter (headers : List Str) (key : Str) : ∀ (rows : List (List Str)) (d : Dict Key Val),
    csvEntries headers key rows d = csvEntries headers key (rows.filter (fun r => !r.isEmpty)) d
  | [], _ => rfl
  | [] :: rows, d => by
    rw [csvEntries, List.filter_cons]
    simp only [List.isEmpty_nil, Bool.not_true, Bool.false_eq_true, if_false]
    exact csvEntries_filter headers key rows d
  | (c :: cs) :: rows, d => by
    rw [List.filter_cons]
    simp only [List.isEmpty_cons, Bool.not_false, if_true]
    rw [csvEntries.eq_def, csvEntries.eq_def headers key ((c :: cs) :: _)]
    simp only
    congr 1
    funext temp
    cases Dict.get? temp (.s key) with
    | none => rfl
    | some v =>
      cases v with
      | str k => exact csvEntries_filter headers key rows _
      | _ => rfl

/-- empty rows do not count -/
theorem csvTable_filter (key : Str) : ∀ rows : List (List Str), csvTable key rows = csvTable key (rows.filter (fun r => !r.isEmpty))
  | [] => rfl
  | [] :: rows => by
    rw [csvTable, List.filter_cons]
    simp only [List.isEmpty_nil, Bool.not_true, Bool.false_eq_true, if_false]
    exact csvTable_filter key rows
  | (h :: hs) :: rows => by
    rw [List.filter_cons]
    simp only [List.isEmpty_cons, Bool.not_false, if_true]
    rw [csvTable, csvTable, csvEntries_filter _ h rows, csvEntries_filter _ key rows]

theorem loadCsv_text (key : Str) {t : Str} {rows : List (List Str)} (h : CsvText t rows) : loadCsv key t = csvTable key rows := by
  unfold loadCsv
  rw [csvTable_filter, csvReader_text h]

end TTP.Format
