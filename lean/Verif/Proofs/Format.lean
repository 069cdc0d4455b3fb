import Verif.Model.Format
import Verif.Proofs.Group
import Verif.Spec.Format
/-!
# Proofs about output functions and CSV
-/

namespace TTP
open Py Spec

namespace Format
open MatchFn

theorem keyVal_eq : Format.keyVal = Spec.keyVal := by
  funext k; cases k <;> rfl

/-! ## traverse -/

theorem travPath_follow (b : Bool) (p : List Str) (v w : Val) (h : follow p v = some w) : travPath b p v = .ok w := by
  induction p generalizing v with
  | nil => simp only [follow, Option.some.injEq] at h; subst h; cases v <;> rfl
  | cons k p ih =>
    cases v with
    | dict d =>
      simp only [follow] at h
      cases hg : Dict.get? d (.s k) with
      | none => simp [hg] at h
      | some x =>
        simp only [hg, Option.bind_some] at h
        simp only [travPath, hg]
        exact ih x h
    | _ => simp [follow] at h

/-! ## dict_to_list -/

theorem dtlLoop_dicts (key : Str) (es : List (Key × Dict Key Val)) :
    dtlLoop key (es.map (fun e => (e.1, Val.dict e.2))) =
      (es.map (fun e => (e.1, Val.dict (Dict.set e.2 (.s key) (Spec.keyVal e.1)))),
        some (es.map (fun e => Val.dict (Dict.set e.2 (.s key) (Spec.keyVal e.1))))) := by
  rw [← keyVal_eq]
  induction es with
  | nil => rfl
  | cons e es ih => simp only [List.map_cons, dtlLoop, ih, Option.map_some]

theorem dictToList_dicts (key : Str) (es : List (Key × Dict Key Val)) :
    dictToList key (.dict (es.map (fun e => (e.1, Val.dict e.2)))) =
      (.dict (es.map (fun e => (e.1, Val.dict (Dict.set e.2 (.s key) (Spec.keyVal e.1))))),
        .list (es.map (fun e => Val.dict (Dict.set e.2 (.s key) (Spec.keyVal e.1))))) := by
  rw [dictToList, dtlLoop_dicts]

theorem dictToListL_map (key : Str) (xs : List Val) :
    dictToListL key xs = (xs.map (fun x => (dictToList key x).1), xs.map (fun x => (dictToList key x).2)) := by
  induction xs with
  | nil => rfl
  | cons x xs ih => simp only [dictToListL, ih, List.map_cons]

/-! ## table -/

theorem putCell_length (k : Key) (v : Val) (hs : List Key) (row : List Val) : (putCell k v hs row).length = row.length := by
  induction hs generalizing row with
  | nil => rw [putCell]; simp
  | cons h hs ih =>
    cases row with
    | nil => rfl
    | cons c cs =>
      rw [putCell]
      split
      · rfl
      · simp [ih]

theorem putCell_get (k : Key) (v : Val) (hs : List Key) (row : List Val) (hl : row.length = hs.length) (j : Nat) :
    (putCell k v hs row)[j]? = if hs[j]? = some k ∧ k ∉ hs.take j then some v else row[j]? := by
  induction hs generalizing row j with
  | nil => rw [putCell]; simp; simp
  | cons h hs ih =>
    cases row with
    | nil => simp at hl
    | cons c cs =>
      rw [putCell]
      cases j with
      | zero =>
        by_cases e : h = k
        · simp [e]
        · simp [e]
      | succ j =>
        by_cases e : h = k
        · simp [e]
        · have e' : ¬ (k = h) := fun x => e x.symm
          simp only [e, if_false, List.getElem?_cons_succ, List.take_succ_cons, List.mem_cons, not_or, e', not_false_eq_true, true_and]
          exact ih cs (by simpa using hl) j

theorem foldl_row (hs : List Key) (d : Dict Key Val) (row : List Val) (hl : row.length = hs.length) (hw : Dict.WF d) :
    (d.foldl (fun row kv => putCell kv.1 kv.2 hs row) row).length = hs.length ∧
    ∀ (j : Nat) h, hs[j]? = some h → h ∉ hs.take j →
      (d.foldl (fun row kv => putCell kv.1 kv.2 hs row) row)[j]? = (match Dict.get? d h with
        | some v => some v
        | none => row[j]?) := by
  induction d generalizing row with
  | nil => exact ⟨hl, fun j h _ _ => rfl⟩
  | cons kv d ih =>
    obtain ⟨k, v⟩ := kv
    rw [Dict.WF_cons] at hw
    obtain ⟨h1, h2⟩ := ih (putCell k v hs row) (by rw [putCell_length, hl]) hw.2
    refine ⟨h1, ?_⟩
    intro j h hj hn
    simp only [List.foldl_cons]
    rw [h2 j h hj hn, Dict.get?_cons]
    by_cases e : k = h
    · subst e
      rw [(Dict.get?_eq_none_iff d k).2 hw.1]
      simp only [if_true]
      rw [putCell_get k v hs row hl, if_pos ⟨hj, hn⟩]
    · simp only [e, if_false]
      cases Dict.get? d h with
      | some w => rfl
      | none =>
        simp only
        rw [putCell_get k v hs row hl, if_neg]
        rintro ⟨h3, _⟩
        rw [hj] at h3; injection h3 with h3; exact e h3.symm

theorem rowOf_spec (hs : List Key) (missing : Val) (d : Dict Key Val) (hw : Dict.WF d) :
    (rowOf hs missing d).length = hs.length ∧
    ∀ (j : Nat) h, hs[j]? = some h → h ∉ hs.take j → (rowOf hs missing d)[j]? = some ((Dict.get? d h).getD missing) := by
  obtain ⟨h1, h2⟩ := foldl_row hs d (hs.map (fun _ => missing)) (by simp) hw
  refine ⟨h1, fun j h hj hn => ?_⟩
  unfold rowOf
  rw [h2 j h hj hn]
  cases Dict.get? d h with
  | some v => rfl
  | none => simp [hj]

theorem rowsOf_dicts (hs : List Key) (missing : Val) (items : List (Dict Key Val)) :
    rowsOf hs missing (items.map .dict) = .ok (items.map (rowOf hs missing)) := by
  induction items with
  | nil => rfl
  | cons d ds ih => rw [List.map_cons, rowsOf, ih]; rfl

theorem allKeys_dicts (items : List (Dict Key Val)) : allKeys (items.map .dict) = .ok (items.flatMap Dict.keys) := by
  induction items with
  | nil => rfl
  | cons d ds ih => rw [List.map_cons, allKeys, ih]; rfl

theorem dataToTable_spec (o : TableOpts) (ds : List Val) (its : List (Dict Key Val))
    (h : RecordsIn o.path o.key ds its) : dataToTable o ds = .ok (its.map .dict) := by
  induction h with
  | nil => rfl
  | cons e v it rest ds hv hr _ ih =>
    rw [dataToTable, ih]
    have ht : traverse o.strict o.path (.dict e) = .ok v := by rw [traverse]; exact travPath_follow _ _ _ _ hv
    rw [ht]
    have hi : itemRows o.key v = it.map .dict := by
      cases hr with
      | list items => rfl
      | empty => rfl
      | one d hd hk =>
        cases d with
        | nil => exact absurd rfl hd
        | cons a b => simp [itemRows, hk]
      | entries es hne hk =>
        cases es with
        | nil => exact absurd rfl hne
        | cons a b =>
          simp only [List.map_cons, itemRows, if_neg hk]
          have := dictToList_dicts o.key (a :: b)
          simp only [List.map_cons] at this
          rw [this]
          simp
    simp only [ok_bind, hi, pure_ok, List.map_append]

/-! ### sorting -/

theorem insertSorted_perm {α : Type} (le : α → α → Bool) (x : α) (l : List α) : (insertSorted le x l).Perm (x :: l) := by
  induction l with
  | nil => exact List.Perm.refl _
  | cons y ys ih =>
    rw [insertSorted]
    split
    · exact List.Perm.refl _
    · exact (List.Perm.cons y ih).trans (List.Perm.swap x y ys)

theorem sorted_perm {α : Type} (le : α → α → Bool) (l : List α) : (sorted le l).Perm l := by
  induction l with
  | nil => exact List.Perm.refl _
  | cons x l ih => exact (insertSorted_perm le x _).trans (List.Perm.cons x ih)

theorem insertSorted_pairwise {α : Type} (le : α → α → Bool) (ht : ∀ a b, le a b = true ∨ le b a = true)
    (htr : ∀ a b c, le a b = true → le b c = true → le a c = true) (x : α) (l : List α) (h : l.Pairwise (fun a b => le a b = true)) :
    (insertSorted le x l).Pairwise (fun a b => le a b = true) := by
  induction l with
  | nil => simp [insertSorted]
  | cons y ys ih =>
    rw [insertSorted]
    rw [List.pairwise_cons] at h
    split
    · rename_i hxy
      refine List.pairwise_cons.2 ⟨?_, List.pairwise_cons.2 h⟩
      intro z hz
      rcases List.mem_cons.1 hz with rfl | hz
      · exact hxy
      · exact htr _ _ _ hxy (h.1 z hz)
    · rename_i hxy
      refine List.pairwise_cons.2 ⟨?_, ih h.2⟩
      intro z hz
      rcases List.mem_cons.1 ((insertSorted_perm le x ys).mem_iff.1 hz) with rfl | hz
      · rcases ht y z with h1 | h1
        · exact h1
        · exact absurd h1 hxy
      · exact h.1 z hz

theorem sorted_pairwise {α : Type} (le : α → α → Bool) (ht : ∀ a b, le a b = true ∨ le b a = true)
    (htr : ∀ a b c, le a b = true → le b c = true → le a c = true) (l : List α) :
    (sorted le l).Pairwise (fun a b => le a b = true) := by
  induction l with
  | nil => exact List.Pairwise.nil
  | cons x l ih => exact insertSorted_pairwise le ht htr x _ ih

theorem strLe_iff (a b : Str) : strLe a b = true ↔ a = b ∨ a < b := by
  induction a generalizing b with
  | nil =>
    cases b with
    | nil => simp [strLe]
    | cons c cs => simp [strLe]
  | cons x xs ih =>
    cases b with
    | nil => simp [strLe]
    | cons y ys =>
      rw [strLe, List.cons_lt_cons_iff]
      have hlt : x.toNat < y.toNat ↔ x < y := by
        rw [Char.lt_def, UInt32.lt_iff_toNat_lt]; rfl
      have hlt2 : y.toNat < x.toNat ↔ y < x := by
        rw [Char.lt_def, UInt32.lt_iff_toNat_lt]; rfl
      simp only [hlt, hlt2]
      by_cases h1 : x < y
      · simp [h1]
      · by_cases h2 : y < x
        · have : x ≠ y := by rintro rfl; exact h1 h2
          simp [h1, h2, this]
        · have : x = y := by
            rw [← hlt] at h1; rw [← hlt2] at h2
            exact Char.toNat_inj.1 (by omega)
          subst this
          simp only [h1, if_false, ih, false_or, true_and, List.cons.injEq]

theorem strLe_total (a b : Str) : strLe a b = true ∨ strLe b a = true := by
  rw [strLe_iff, strLe_iff]
  rcases Std.lt_trichotomy a b with h | h | h
  · exact Or.inl (Or.inr h)
  · exact Or.inl (Or.inl h)
  · exact Or.inr (Or.inr h)

theorem strLe_trans (a b c : Str) (h1 : strLe a b = true) (h2 : strLe b c = true) : strLe a c = true := by
  rw [strLe_iff] at *
  rcases h1 with rfl | h1
  · exact h2
  · rcases h2 with rfl | h2
    · exact Or.inr h1
    · exact Or.inr (List.lt_trans h1 h2)

theorem eraseDups_nodupK (l : List Key) : l.eraseDups.Nodup := by
  induction h : l.length using Nat.strongRecOn generalizing l with
  | _ n ih =>
    cases l with
    | nil => simp
    | cons a as =>
      rw [List.eraseDups_cons, List.nodup_cons]
      refine ⟨?_, ih _ ?_ _ rfl⟩
      · rw [List.mem_eraseDups]; simp
      · subst h; simp only [List.length_cons]
        exact Nat.lt_succ_of_le (List.length_filter_le _ _)

/-- headers of records with names as keys -/
theorem headersOf_computed (items : List (Dict Key Val)) (hk : ∀ d ∈ items, ∀ k ∈ Dict.keys d, ∃ s, k = Key.s s) :
    ∃ names : List Str, headersOf [] (items.map .dict) = .ok (names.map .s) ∧ names.Pairwise (· < ·) ∧
      ∀ n, n ∈ names ↔ ∃ d ∈ items, Key.s n ∈ Dict.keys d := by
  have hint : intKeys (items.flatMap Dict.keys).eraseDups = [] := by
    unfold intKeys
    rw [List.filterMap_eq_nil_iff]
    intro k hk1
    rw [List.mem_eraseDups, List.mem_flatMap] at hk1
    obtain ⟨d, hd, hkd⟩ := hk1
    obtain ⟨s, rfl⟩ := hk d hd k hkd
    rfl
  have hnd : (strKeys (items.flatMap Dict.keys).eraseDups).Nodup := by
    have h0 : ((items.flatMap Dict.keys).eraseDups).Nodup := eraseDups_nodupK _
    unfold strKeys
    generalize (items.flatMap Dict.keys).eraseDups = l at h0
    induction l with
    | nil => exact List.nodup_nil
    | cons k l ih =>
      rw [List.nodup_cons] at h0
      cases k with
      | i n => simpa [List.filterMap_cons] using ih h0.2
      | s t =>
        simp only [List.filterMap_cons]
        rw [List.nodup_cons]
        refine ⟨?_, ih h0.2⟩
        intro hm
        rw [List.mem_filterMap] at hm
        obtain ⟨k, h1, h2⟩ := hm
        cases k with
        | i n => cases h2
        | s u =>
          simp only [Option.some.injEq] at h2
          subst h2
          exact h0.1 h1
  refine ⟨sorted strLe (strKeys (items.flatMap Dict.keys).eraseDups), ?_, ?_, ?_⟩
  · unfold headersOf sortKeys
    rw [allKeys_dicts]
    simp only [List.isEmpty_nil, if_true, ok_bind, hint]
    rfl
  · have h1 := sorted_pairwise strLe strLe_total strLe_trans (strKeys (items.flatMap Dict.keys).eraseDups)
    have h2 : (sorted strLe (strKeys (items.flatMap Dict.keys).eraseDups)).Nodup := (sorted_perm _ _).nodup_iff.2 hnd
    refine List.Pairwise.imp ?_ (List.Pairwise.and h1 h2)
    rintro a b ⟨h3, h4⟩
    rcases (strLe_iff a b).1 h3 with h | h
    · exact absurd h h4
    · exact h
  · intro n
    rw [(sorted_perm _ _).mem_iff]
    unfold strKeys
    rw [List.mem_filterMap]
    constructor
    · rintro ⟨k, h1, h2⟩
      rw [List.mem_eraseDups, List.mem_flatMap] at h1
      obtain ⟨d, hd, hkd⟩ := h1
      cases k with
      | i n => cases h2
      | s u =>
        simp only [Option.some.injEq] at h2
        subst h2
        exact ⟨d, hd, hkd⟩
    · rintro ⟨d, hd, hkd⟩
      exact ⟨.s n, by rw [List.mem_eraseDups, List.mem_flatMap]; exact ⟨d, hd, hkd⟩, rfl⟩

/-! ## csv -/

theorem read_quoted (sep quote : Char) (w rest : Str) (hw : quote ∉ w) (cell : Str) (row : List Str) :
    readCsvAux sep quote (w ++ quote :: rest) .quoted cell row = readCsvAux sep quote rest .closed (cell ++ w) row := by
  induction w generalizing cell with
  | nil => simp [readCsvAux]
  | cons c w ih =>
    simp only [List.mem_cons, not_or] at hw
    have : ¬ (c = quote) := fun e => hw.1 e.symm
    rw [List.cons_append, readCsvAux, if_neg this, ih hw.2]
    simp

theorem read_line (sep quote : Char) (hsq : sep ≠ quote) (cells : List Str) (hne : cells ≠ []) (hc : ∀ w ∈ cells, quote ∉ w)
    (row : List Str) (rest : Str) :
    ∃ cell init, row ++ cells = init ++ [cell] ∧
      readCsvAux sep quote (csvLine [sep] [quote] cells ++ rest) .start [] row = readCsvAux sep quote rest .closed cell init := by
  unfold csvLine
  induction cells generalizing row with
  | nil => exact absurd rfl hne
  | cons w ws ih =>
    cases ws with
    | nil =>
      refine ⟨w, row, rfl, ?_⟩
      simp only [join, List.singleton_append, List.cons_append, List.append_assoc, List.nil_append]
      rw [readCsvAux, if_pos rfl, read_quoted sep quote w rest (hc w (by simp))]
      simp
    | cons v vs =>
      obtain ⟨cell, init, h1, h2⟩ := ih (by simp) (fun u hu => hc u (by simp [hu])) (row ++ [w])
      refine ⟨cell, init, by rw [← h1]; simp, ?_⟩
      rw [← h2, join_cons _ _ _ (by simp)]
      simp only [List.singleton_append, List.cons_append, List.append_assoc, List.nil_append]
      rw [readCsvAux, if_pos rfl, read_quoted sep quote w _ (hc w (by simp))]
      rw [readCsvAux, if_neg hsq, if_pos rfl]
      simp

theorem read_text (sep quote : Char) (hsq : sep ≠ quote) (hs : sep ≠ '\n') (hq : quote ≠ '\n') (r : List Str) (rows : List (List Str))
    (hne : ∀ x ∈ r :: rows, x ≠ []) (hc : ∀ x ∈ r :: rows, ∀ w ∈ x, quote ∉ w) :
    readCsv sep quote (csvLine [sep] [quote] r ++ (rows.map (fun row => '\n' :: csvLine [sep] [quote] row)).flatten) = r :: rows := by
  unfold readCsv
  induction rows generalizing r with
  | nil =>
    obtain ⟨cell, init, h1, h2⟩ := read_line sep quote hsq r (hne r (by simp)) (hc r (by simp)) [] []
    simp only [List.map_nil, List.flatten_nil]
    rw [h2, readCsvAux, ← h1]; rfl
  | cons s rows ih =>
    obtain ⟨cell, init, h1, h2⟩ := read_line sep quote hsq r (hne r (by simp)) (hc r (by simp)) []
      ((('\n' :: csvLine [sep] [quote] s) :: rows.map (fun row => '\n' :: csvLine [sep] [quote] row)).flatten)
    simp only [List.map_cons]
    rw [h2, List.flatten_cons, List.cons_append, readCsvAux, if_neg (Ne.symm hq), if_neg (Ne.symm hs), if_pos rfl]
    rw [ih s (fun x hx => hne x (List.mem_cons_of_mem _ hx)) (fun x hx => hc x (List.mem_cons_of_mem _ hx)), ← h1]
    rfl

theorem headerStrs_names (names : List Str) : headerStrs (names.map .s) = .ok names := by
  induction names with
  | nil => rfl
  | cons n ns ih => rw [List.map_cons, headerStrs, ih]; rfl

/-! ## reading with `csv.reader` -/

theorem splitlinesAux_break (cur l rest : Str) (h : ∀ c ∈ l, isBreak c = false) :
    splitlinesAux cur (l ++ '\n' :: rest) = (cur ++ l) :: splitlinesAux [] rest := by
  induction l generalizing cur with
  | nil =>
    rw [List.nil_append, splitlinesAux, if_pos (by decide)]
    · simp
    · intro cs hc; cases hc
  | cons c l ih =>
    have hc := h c (by simp)
    rw [List.cons_append, splitlinesAux, if_neg (by rw [hc]; simp), ih _ (fun x hx => h x (by simp [hx]))]
    · simp
    · intro cs e _
      subst e
      exact absurd hc (by decide)

theorem splitlinesAux_end (cur l : Str) (h : ∀ c ∈ l, isBreak c = false) (hne : cur ++ l ≠ []) : splitlinesAux cur l = [cur ++ l] := by
  induction l generalizing cur with
  | nil =>
    rw [List.append_nil] at hne ⊢
    rw [splitlinesAux, if_neg hne]
  | cons c l ih =>
    have hc := h c (by simp)
    rw [splitlinesAux, if_neg (by rw [hc]; simp), ih _ (fun x hx => h x (by simp [hx])) (by simp)]
    · simp
    · intro cs e _
      subst e
      exact absurd hc (by decide)

theorem splitlines_lines (l : Str) (ls : List Str) (h : ∀ x ∈ l :: ls, ∀ c ∈ x, isBreak c = false) (hne : ∀ x ∈ l :: ls, x ≠ []) :
    splitlines (l ++ (ls.map (fun x => '\n' :: x)).flatten) = l :: ls := by
  unfold splitlines
  induction ls generalizing l with
  | nil =>
    simp only [List.map_nil, List.flatten_nil, List.append_nil]
    rw [splitlinesAux_end [] l (h l (by simp)) (by simpa using hne l (by simp))]
    rfl
  | cons m ls ih =>
    simp only [List.map_cons, List.flatten_cons, List.cons_append]
    rw [splitlinesAux_break [] l _ (h l (by simp)), ih m (fun x hx => h x (List.mem_cons_of_mem _ hx)) (fun x hx => hne x (List.mem_cons_of_mem _ hx))]
    rfl

theorem chars_quoted (w rest : Str) (hw : '"' ∉ w) (cell : Str) (row : List Str) :
    csvChars (w ++ '"' :: rest) .quoted cell row = csvChars rest .closed (cell ++ w) row := by
  induction w generalizing cell with
  | nil => simp [csvChars]
  | cons c w ih =>
    simp only [List.mem_cons, not_or] at hw
    have : ¬ (c = '"') := fun e => hw.1 e.symm
    rw [List.cons_append, csvChars, if_neg this, ih hw.2]
    simp

theorem chars_line (cells : List Str) (hne : cells ≠ []) (hc : ∀ w ∈ cells, '"' ∉ w) (row : List Str) :
    ∃ cell init, row ++ cells = init ++ [cell] ∧
      csvChars (csvLine [','] ['"'] cells) .start [] row = (.closed, cell, init) := by
  unfold csvLine
  induction cells generalizing row with
  | nil => exact absurd rfl hne
  | cons w ws ih =>
    cases ws with
    | nil =>
      refine ⟨w, row, rfl, ?_⟩
      simp only [join, List.cons_append, List.nil_append]
      rw [csvChars, if_pos rfl, chars_quoted w [] (hc w (by simp))]
      simp [csvChars]
    | cons v vs =>
      obtain ⟨cell, init, h1, h2⟩ := ih (by simp) (fun u hu => hc u (by simp [hu])) (row ++ [w])
      refine ⟨cell, init, by rw [← h1]; simp, ?_⟩
      rw [← h2, join_cons _ _ _ (by simp)]
      simp only [List.cons_append, List.append_assoc, List.nil_append]
      rw [csvChars, if_pos rfl, chars_quoted w _ (hc w (by simp))]
      rw [csvChars, if_neg (by decide), if_pos rfl]
      simp

theorem csvLine_ne (cells : List Str) : csvLine [','] ['"'] cells ≠ [] := by
  unfold csvLine; simp

theorem csvReader_lines (rows : List (List Str)) (hne : ∀ x ∈ rows, x ≠ []) (hc : ∀ x ∈ rows, ∀ w ∈ x, '"' ∉ w) :
    csvReader (rows.map (csvLine [','] ['"'])) = rows := by
  unfold csvReader
  induction rows with
  | nil => rfl
  | cons r rows ih =>
    obtain ⟨cell, init, h1, h2⟩ := chars_line r (hne r (by simp)) (hc r (by simp)) []
    rw [List.map_cons]
    have hl := csvLine_ne r
    cases hcl : csvLine [','] ['"'] r with
    | nil => exact absurd hcl hl
    | cons a b =>
      rw [hcl] at h2
      rw [csvRows]
      · rw [h2]
        simp only
        rw [ih (fun x hx => hne x (by simp [hx])) (fun x hx => hc x (by simp [hx])), ← h1]
        rfl
      · intro _ h; cases h

theorem csvLine_chars (cells : List Str) (h : ∀ w ∈ cells, ∀ c ∈ w, isBreak c = false) : ∀ c ∈ csvLine [','] ['"'] cells, isBreak c = false := by
  intro c hc
  unfold csvLine at hc
  simp only [List.append_assoc, List.mem_append, List.mem_singleton] at hc
  rcases hc with rfl | hc | rfl
  · decide
  · rcases mem_join _ _ _ hc with hc | ⟨w, hw, hc⟩
    · simp only [List.cons_append, List.nil_append, List.mem_cons, List.mem_nil_iff, or_false] at hc
      rcases hc with rfl | rfl | rfl <;> decide
    · exact h w hw c hc
  · decide

theorem reader_text (r : List Str) (rows : List (List Str)) (hne : ∀ x ∈ r :: rows, x ≠ [])
    (hc : ∀ x ∈ r :: rows, ∀ w ∈ x, ∀ c ∈ w, c ≠ '"' ∧ isBreak c = false) :
    csvReader (splitlines (csvLine [','] ['"'] r ++ (rows.map (fun row => '\n' :: csvLine [','] ['"'] row)).flatten)) = r :: rows := by
  have e : rows.map (fun row => '\n' :: csvLine [','] ['"'] row) = (rows.map (csvLine [','] ['"'])).map (fun x => '\n' :: x) := by
    rw [List.map_map]; rfl
  rw [e, splitlines_lines]
  · exact csvReader_lines (r :: rows) hne (fun x hx w hw hq => (hc x hx w hw _ hq).1 rfl)
  · intro x hx
    have hx' : x ∈ (r :: rows).map (csvLine [','] ['"']) := hx
    obtain ⟨y, hy, rfl⟩ := List.mem_map.1 hx'
    exact csvLine_chars y (fun w hw c hc' => (hc y hy w hw c hc').2)
  · intro x hx
    have hx' : x ∈ (r :: rows).map (csvLine [','] ['"']) := hx
    obtain ⟨y, hy, rfl⟩ := List.mem_map.1 hx'
    exact csvLine_ne y

/-! ## load_csv -/

/-- cells as entries of a dictionary -/
def cells (hs row : List Str) : Dict Key Val := (hs.zip row).map (fun c => (Key.s c.1, Val.str c.2))

theorem cells_keys (hs row : List Str) (hl : row.length = hs.length) : Dict.keys (cells hs row) = hs.map Key.s := by
  unfold cells Dict.keys
  rw [List.map_map]
  have : ((Prod.fst ∘ fun c : Str × Str => (Key.s c.1, Val.str c.2)) : Str × Str → Key) = Key.s ∘ Prod.fst := rfl
  rw [this, ← List.map_map, List.map_fst_zip (by omega)]

theorem rowDict_eq (hs row : List Str) (hnd : hs.Nodup) (hl : row.length = hs.length) (acc : Dict Key Val)
    (ha : ∀ h ∈ hs, Key.s h ∉ Dict.keys acc) : rowDict hs row acc = .ok (acc ++ cells hs row) := by
  induction hs generalizing row acc with
  | nil =>
    cases row with
    | nil => simp [rowDict, cells]
    | cons c cs => simp at hl
  | cons h hs ih =>
    cases row with
    | nil => simp at hl
    | cons c cs =>
      rw [List.nodup_cons] at hnd
      rw [rowDict]
      have hset : Dict.set acc (.s h) (.str c) = acc ++ [(.s h, .str c)] := Dict.set_of_not_mem acc _ _ (ha h (by simp))
      rw [hset, ih cs hnd.2 (by simpa using hl)]
      · simp [cells]
      · intro k hk
        simp only [Dict.keys, List.map_append, List.map_cons, List.map_nil, List.mem_append, List.mem_singleton, not_or]
        refine ⟨ha k (by simp [hk]), ?_⟩
        intro e
        injection e with e
        subst e
        exact hnd.1 hk

theorem cells_get (hs row : List Str) (k : Str) : Dict.get? (cells hs row) (.s k) = (cellOf hs row k).map Val.str := by
  unfold cells cellOf
  generalize hs.zip row = l
  induction l with
  | nil => rfl
  | cons c l ih =>
    rw [List.map_cons, Dict.get?_cons, List.lookup_cons]
    by_cases h : c.1 = k
    · subst h; simp
    · have h1 : ¬ (Key.s c.1 = Key.s k) := fun e => h (by injection e)
      have h2 : (k == c.1) = false := by simp; exact fun e => h e.symm
      rw [if_neg h1, h2, ih]

theorem cells_erase (hs row : List Str) (hnd : hs.Nodup) (hl : row.length = hs.length) (k : Str) :
    Dict.erase (cells hs row) (.s k) = otherCells hs row k := by
  have hw : Dict.WF (cells hs row) := by
    unfold Dict.WF
    rw [cells_keys hs row hl]
    unfold List.Nodup
    rw [List.pairwise_map]
    exact hnd.imp (fun h e => h (by injection e))
  unfold cells at hw ⊢
  unfold otherCells
  generalize hs.zip row = l at hw
  induction l with
  | nil => rfl
  | cons c l ih =>
    rw [List.map_cons, Dict.WF_cons] at hw
    rw [List.map_cons, Dict.erase, List.filter_cons]
    by_cases h : c.1 = k
    · subst h
      simp only [if_true, ne_eq, not_true, decide_false, Bool.false_eq_true, if_false]
      rw [List.filter_eq_self.2]
      intro x hx
      simp only [decide_eq_true_eq]
      intro e
      apply hw.1
      unfold Dict.keys
      rw [List.map_map, List.mem_map]
      exact ⟨x, hx, by simp [e]⟩
    · have h1 : ¬ (Key.s c.1 = Key.s k) := fun e => h (by injection e)
      simp only [h1, if_false, ne_eq, h, not_false_eq_true, decide_true, if_true, List.map_cons]
      rw [ih hw.2]

theorem cellOf_some (hs row : List Str) (hl : row.length = hs.length) (k : Str) (hk : k ∈ hs) : ∃ x, cellOf hs row k = some x := by
  unfold cellOf
  induction hs generalizing row with
  | nil => cases hk
  | cons h hs ih =>
    cases row with
    | nil => simp at hl
    | cons c cs =>
      rw [List.zip_cons_cons, List.lookup_cons]
      by_cases e : k = h
      · subst e; exact ⟨c, by simp⟩
      · have : (k == h) = false := by simp [e]
        rw [this]
        exact ih cs (by simpa using hl) (by simpa [e] using hk)

theorem csvEntries_spec (hs : List Str) (hnd : hs.Nodup) (key : Str) (hk : key ∈ hs) (rows : List (List Str))
    (hl : ∀ r ∈ rows, r.length = hs.length) (data : Dict Key Val) :
    ∃ e, csvEntries hs key rows data = .ok e ∧
      (∀ k, Dict.get? e (.s k) = match (rows.filter (fun r => decide (cellOf hs r key = some k))).getLast? with
        | some r => some (.dict (otherCells hs r key))
        | none => Dict.get? data (.s k)) ∧
      (∀ q ∈ Dict.keys e, q ∈ Dict.keys data ∨ ∃ r ∈ rows, ∃ k, q = .s k ∧ cellOf hs r key = some k) := by
  have hpos : 0 < hs.length := List.length_pos_iff.2 (by rintro rfl; cases hk)
  induction rows generalizing data with
  | nil => exact ⟨data, rfl, fun k => rfl, fun q hq => Or.inl hq⟩
  | cons r rows ih =>
    have hr := hl r (by simp)
    cases r with
    | nil => simp at hr; omega
    | cons c cs =>
      obtain ⟨x, hx⟩ := cellOf_some hs (c :: cs) hr key hk
      obtain ⟨e, h1, h2, h3⟩ := ih (fun r' hr' => hl r' (by simp [hr'])) (Dict.set data (.s x) (.dict (otherCells hs (c :: cs) key)))
      refine ⟨e, ?_, ?_, ?_⟩
      · rw [csvEntries, rowDict_eq hs (c :: cs) hnd hr [] (by simp [Dict.keys]), ok_bind, List.nil_append]
        have hg : Dict.get? (cells hs (c :: cs)) (.s key) = some (.str x) := by rw [cells_get, hx]; rfl
        rw [hg]
        simp only
        rw [cells_erase hs (c :: cs) hnd hr]
        exact h1
        intro h; cases h
      · intro k
        rw [h2 k, List.filter_cons]
        by_cases hxk : x = k
        · subst hxk
          rw [hx]
          simp only [decide_true, if_true]
          rw [List.getLast?_cons]
          cases (rows.filter (fun r => decide (cellOf hs r key = some x))).getLast? with
          | some r => rfl
          | none => simp [Dict.get?_set_self]
        · have : ¬ (cellOf hs (c :: cs) key = some k) := by rw [hx]; simpa using hxk
          simp only [this, decide_false, Bool.false_eq_true, if_false]
          cases (rows.filter (fun r => decide (cellOf hs r key = some k))).getLast? with
          | some r => rfl
          | none =>
            simp only
            exact Dict.get?_set_ne _ _ (fun e => hxk (by injection e))
      · intro q hq
        rcases h3 q hq with h | ⟨r', hr', k, h4, h5⟩
        · rcases (Dict.mem_keys_set _ _ _ _).1 h with h | h
          · exact Or.inr ⟨c :: cs, by simp, x, h, hx⟩
          · exact Or.inl h
        · exact Or.inr ⟨r', by simp [hr'], k, h4, h5⟩

end Format
end TTP
