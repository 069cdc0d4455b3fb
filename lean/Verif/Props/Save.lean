import Verif.Proofs.Save2
import Verif.Spec.Machine
/-!
# C01 - C09: what saving a record does to the results tree

`save toInt merge data path R` is the model of saving `data` at the processed path `path` (names with the number of
asterisks) into the results `R`. `pathKeys toInt path` are the keys of the path (`Spec/Machine.lean`); `At`, `Absent`, `Blocked`, `get`, `Merged`
are the specification vocabulary of `Spec/Tree.lean`. A path is *ordinary* if it has no null item `_`.
-/

namespace Props
open Py Spec TTP

theorem pathKeys_eq (toInt : Bool) (path : List PItem) : pathKeys toInt path = pkeys toInt path :=
  pathKeys_pkeys toInt path

theorem noInt_of {ti : Bool} {path : List PItem} (h : NoNumbers ti path) : NoInt ti path := NoInt_of h

/-! ## C01 -/

/-- C01. A path that ends with a single `*`: the list at the path is the list that was there (or nothing), followed by
the records in their order; only records without any value are left out. Holds for both settings of
`dynamic_path_key_to_int`. -/
theorem C01_list_path_accumulates (toInt : Bool) (path : List PItem) (hnull : ∀ p ∈ path, p.name ≠ c!"_")
    (last : PItem) (hlast : path.getLast? = some last) (hstar : last.stars = 1)
    (R : Val) (xs : List Val)
    (hR : At (pathKeys toInt path) R (.list xs) ∨ (Absent (pathKeys toInt path) R ∧ xs = []))
    (rs : List (Dict Key Val)) (hsome : rs ≠ []) :
    ∃ R', saveMany toInt path rs R = .ok R' ∧
      At (pathKeys toInt path) R' (.list (xs ++ (rs.filter (fun r => !r.isEmpty)).map .dict)) := by
  simp only [pathKeys_eq] at *
  have hnn : NN path := hnull
  have step : ∀ (R : Val) (xs : List Val) (r : Dict Key Val),
      (At (pkeys toInt path) R (.list xs) ∨ (Absent (pkeys toInt path) R ∧ xs = [])) →
      ∃ R', save toInt false (.dict r) path R = .ok R' ∧
        At (pkeys toInt path) R' (.list (xs ++ ([r].filter (fun r => !r.isEmpty)).map .dict)) := by
    intro R xs r h
    have hf : ∀ ys : List Val, saveElem false (isDStar path) (.dict r) (.list ys) =
        .ok (.list (ys ++ ([r].filter (fun r => !r.isEmpty)).map .dict), false) := by
      intro ys; cases r <;> simp [saveElem, Val.truthy]
    rcases h with h | ⟨h, rfl⟩
    · exact save_At _ _ _ _ hnn _ _ _ h (hf xs)
    · exact save_Absent _ _ _ _ hnn _ _ h (by rw [leaf_star hlast hstar]; exact hf [])
  induction rs generalizing R xs with
  | nil => exact absurd rfl hsome
  | cons r rs ih =>
    obtain ⟨R1, h1, h2⟩ := step R xs r hR
    cases rs with
    | nil => exact ⟨R1, by simp [saveMany, h1], h2⟩
    | cons r2 rs2 =>
      obtain ⟨R', h3, h4⟩ := ih R1 _ (by simp) (Or.inl h2)
      refine ⟨R', ?_, ?_⟩
      · simp only [saveMany, List.foldlM_cons] at h3 ⊢
        rw [h1]; exact h3
      · rw [List.append_assoc, ← List.map_append, ← List.filter_append] at h4
        exact h4

example : ∃ R', saveMany false [⟨c!"a", 0⟩, ⟨c!"b", 1⟩] [[(.s c!"x", .int 1)], [(.s c!"x", .int 1)]]
      (.dict [(.s c!"a", .dict [(.s c!"b", .list [.dict []])])]) = .ok R' ∧
    At [.s c!"a", .s c!"b"] R' (.list [.dict [], .dict [(.s c!"x", .int 1)], .dict [(.s c!"x", .int 1)]]) :=
  C01_list_path_accumulates false [⟨c!"a", 0⟩, ⟨c!"b", 1⟩] (by decide) ⟨c!"b", 1⟩ (by decide) rfl
    (.dict [(.s c!"a", .dict [(.s c!"b", .list [.dict []])])]) [.dict []]
    (Or.inl (At.key rfl (At.key rfl (At.here _)))) [[(.s c!"x", .int 1)], [(.s c!"x", .int 1)]] (by decide)

/-! ## C02 -/

/-- C02. A path without formatter on its last item where nothing was saved before: one record is a dictionary,
several are the list of all of them. `hni`: no item of the path is turned into a number (see C06). -/
theorem C02_plain_path (toInt : Bool) (path : List PItem) (hnull : ∀ p ∈ path, p.name ≠ c!"_")
    (hni : NoNumbers toInt path)
    (last : PItem) (hlast : path.getLast? = some last) (hstar : last.stars = 0)
    (R : Val) (hR : Absent (pathKeys toInt path) R)
    (r : Dict Key Val) (rs : List (Dict Key Val)) (hne : ∀ x ∈ r :: rs, x ≠ []) (hwf : ∀ x ∈ r :: rs, x.WF) :
    ∃ R', saveMany toInt path (r :: rs) R = .ok R' ∧
      At (pathKeys toInt path) R' (if rs = [] then .dict r else .list ((r :: rs).map .dict)) := by
  simp only [pathKeys_eq] at *
  replace hni := noInt_of hni
  have hnn : NN path := hnull
  have hds : isDStar path = false := by rw [isDStar_of hlast, hstar]; rfl
  obtain ⟨R1, h1, h2⟩ := save_Absent toInt false (.dict r) path hnn R (.dict r) hR (by
    rw [leaf_nostar hlast (by omega)]
    simp [saveElem, hds, updateArg, Dict.update_nil_left r (hwf r (by simp))])
  cases rs with
  | nil => exact ⟨R1, by simp [saveMany, h1], by simpa using h2⟩
  | cons r2 rs =>
    obtain ⟨R2, h3, h4⟩ := save_tolist toInt (.dict r2) path hnn hni R1 r h2 (hne r (by simp)) hds
    have many : ∀ (rs : List (Dict Key Val)) (R : Val) (xs : List Val), (∀ x ∈ rs, x ≠ []) →
        At (pkeys toInt path) R (.list xs) →
        ∃ R', saveMany toInt path rs R = .ok R' ∧ At (pkeys toInt path) R' (.list (xs ++ rs.map .dict)) := by
      intro rs
      induction rs with
      | nil => intro R xs _ h; exact ⟨R, rfl, by simpa using h⟩
      | cons x rs ih =>
        intro R xs hx h
        obtain ⟨R', e1, e2⟩ := save_At toInt false (.dict x) path hnn R _ (.list (xs ++ [.dict x])) h (by
          simp [saveElem, Val.truthy, hx x (by simp)])
        obtain ⟨R'', e3, e4⟩ := ih R' _ (fun y hy => hx y (by simp [hy])) e2
        refine ⟨R'', ?_, by simpa using e4⟩
        simp only [saveMany, List.foldlM_cons] at e3 ⊢
        rw [e1]; exact e3
    obtain ⟨R3, h5, h6⟩ := many rs R2 _ (fun x hx => hne x (by simp [hx])) h4
    refine ⟨R3, ?_, by simpa using h6⟩
    simp only [saveMany, List.foldlM_cons] at h5 ⊢
    rw [h1, ok_bind, h3, ok_bind]; exact h5

example : ∃ R', saveMany false [⟨c!"a", 0⟩] [[(.s c!"x", .int 1)], [(.s c!"x", .int 2)]] (.dict []) = .ok R' ∧
    At [.s c!"a"] R' (.list [.dict [(.s c!"x", .int 1)], .dict [(.s c!"x", .int 2)]]) :=
  C02_plain_path false [⟨c!"a", 0⟩] (by decide) (by decide) ⟨c!"a", 0⟩ (by decide) rfl (.dict [])
    (Absent.missing (by decide)) [(.s c!"x", .int 1)] [[(.s c!"x", .int 2)]] (by decide) (by unfold Dict.WF; decide)

/-! ## C03 -/

/-- C03. A path that ends with `**`: the value stays one dictionary; a key has the value of the first record (or of
the dictionary that was there before) that has the key. -/
theorem C03_double_star_first_wins (toInt : Bool) (path : List PItem) (hnull : ∀ p ∈ path, p.name ≠ c!"_")
    (last : PItem) (hlast : path.getLast? = some last) (hstar : last.stars = 2)
    (R : Val) (e : Dict Key Val) (hewf : e.WF)
    (hR : At (pathKeys toInt path) R (.dict e) ∨ (Absent (pathKeys toInt path) R ∧ e = []))
    (rs : List (Dict Key Val)) (hsome : rs ≠ []) (hwf : ∀ r ∈ rs, r.WF) :
    ∃ R' e', saveMany toInt path rs R = .ok R' ∧ At (pathKeys toInt path) R' (.dict e') ∧
      ∀ k, Dict.get? e' k = (e :: rs).findSome? (fun r => Dict.get? r k) := by
  simp only [pathKeys_eq] at *
  have hnn : NN path := hnull
  have hds : isDStar path = true := by rw [isDStar_of hlast, hstar]; rfl
  have step : ∀ (R : Val) (e r : Dict Key Val), e.WF → r.WF →
      (At (pkeys toInt path) R (.dict e) ∨ (Absent (pkeys toInt path) R ∧ e = [])) →
      ∃ R', ∃ e' : Dict Key Val, save toInt false (.dict r) path R = .ok R' ∧ At (pkeys toInt path) R' (.dict e') ∧ e'.WF ∧
        ∀ k, Dict.get? e' k = (Dict.get? e k).or (Dict.get? r k) := by
    intro R e r he hr h
    have hf : saveElem false (isDStar path) (.dict r) (.dict e) = .ok (.dict (Dict.update e (Dict.update r e)), false) := by
      simp [saveElem, hds]
    have hget : ∀ k, Dict.get? (Dict.update e (Dict.update r e)) k = (Dict.get? e k).or (Dict.get? r k) := by
      intro k
      rw [Dict.get?_update _ _ (Dict.WF_update _ _ hr), Dict.get?_update _ _ he]
      cases Dict.get? e k <;> simp
    rcases h with h | ⟨h, rfl⟩
    · obtain ⟨R', h1, h2⟩ := save_At _ _ _ _ hnn _ _ _ h hf
      exact ⟨R', _, h1, h2, Dict.WF_update _ _ he, hget⟩
    · obtain ⟨R', h1, h2⟩ := save_Absent toInt false (.dict r) path hnn _ _ h
        (by rw [leaf_nostar hlast (by omega)]; exact hf)
      exact ⟨R', _, h1, h2, Dict.WF_update _ _ he, hget⟩
  induction rs generalizing R e with
  | nil => exact absurd rfl hsome
  | cons r rs ih =>
    obtain ⟨R1, e1, h1, h2, h3, h4⟩ := step R e r hewf (hwf r (by simp)) hR
    cases rs with
    | nil =>
      refine ⟨R1, e1, by simp [saveMany, h1], h2, fun k => ?_⟩
      rw [h4 k]; simp only [List.findSome?]
      cases Dict.get? e k <;> cases Dict.get? r k <;> rfl
    | cons r2 rs =>
      obtain ⟨R', e', h5, h6, h7⟩ := ih R1 e1 h3 (by simp) (fun x hx => hwf x (by simp [hx])) (Or.inl h2)
      refine ⟨R', e', ?_, h6, fun k => ?_⟩
      · simp only [saveMany, List.foldlM_cons] at h5 ⊢
        rw [h1]; exact h5
      · rw [h7 k, List.findSome?_cons, h4 k, List.findSome?_cons, List.findSome?_cons, List.findSome?_cons]
        cases Dict.get? e k <;> cases Dict.get? r k <;> rfl

example : ∃ R' e', saveMany false [⟨c!"a", 2⟩] [[(.s c!"x", .int 1)], [(.s c!"x", .int 2), (.s c!"y", .int 3)]]
      (.dict []) = .ok R' ∧ At [.s c!"a"] R' (.dict e') ∧
    ∀ k, Dict.get? e' k = ([[], [(.s c!"x", .int 1)], [(.s c!"x", .int 2), (.s c!"y", .int 3)]] : List (Dict Key Val)).findSome?
      (fun r => Dict.get? r k) :=
  C03_double_star_first_wins false [⟨c!"a", 2⟩] (by decide) ⟨c!"a", 2⟩ (by decide) rfl (.dict []) []
    (by unfold Dict.WF; decide) (Or.inr ⟨Absent.missing (by decide), rfl⟩) _ (by decide) (by unfold Dict.WF; decide)

/-! ## C04 -/

/-- C04. Saving at one path leaves every address that diverges from the path exactly as it was: for every kind of
formatter, with and without merging. Not covered: null path items (C05), paths whose items are turned into numbers (C06),
trees in which a list is directly inside of a list. -/
theorem C04_other_paths_untouched (toInt merge : Bool) (data : Val) (path : List PItem)
    (hnull : ∀ p ∈ path, p.name ≠ c!"_") (hni : NoNumbers toInt path)
    (R R' : Val) (hno : NoNested R) (h : save toInt merge data path R = .ok R')
    (addr : List Sel) (hdiv : Diverge (keysOf addr) (pathKeys toInt path)) :
    Spec.get addr R' = Spec.get addr R := by
  simp only [pathKeys_eq] at *
  replace hni := noInt_of hni
  exact
  save_Frame toInt merge data path hnull hni R R' hno h addr hdiv

example : ∃ R', save false false (.dict [(.s c!"x", .int 1)]) [⟨c!"a", 0⟩, ⟨c!"b", 0⟩]
      (.dict [(.s c!"a", .list [.dict [(.s c!"b", .dict [(.s c!"x", .int 7)]), (.s c!"c", .int 5)]])]) = .ok R' ∧
    Spec.get [.key (.s c!"a"), .idx 0, .key (.s c!"c")] R' = some (.int 5) := by
  refine ⟨_, rfl, ?_⟩
  rw [C04_other_paths_untouched false false (.dict [(.s c!"x", .int 1)]) [⟨c!"a", 0⟩, ⟨c!"b", 0⟩] (by decide) (by decide)
    (.dict [(.s c!"a", .list [.dict [(.s c!"b", .dict [(.s c!"x", .int 7)]), (.s c!"c", .int 5)]])]) _
    (by simp [NoNested, NoNestedL, NoNestedD]) rfl _ (by unfold Diverge; decide)]
  decide

/-! ## C05 -/

/-- C05 is false of the code: if the parent record was not saved before, the null item stays in the results as a key.
Witness: path `a._` on empty results. -/
theorem C05_null_path_key_leaks :
    save false false (.dict [(.s c!"x", .int 1)]) [⟨c!"a", 0⟩, ⟨c!"_", 0⟩] (.dict []) =
      .ok (.dict [(.s c!"a", .dict [(.s c!"_", .dict []), (.s c!"x", .int 1)])]) := by decide

/-- C05, the part that holds: a null item at the end, when the parent record exists: the record is merged into the most
recent parent record (which is all that changes there). Missing: paths whose parent is not in the results yet (see
`C05_null_path_key_leaks`), option `dynamic_path_key_to_int`. -/
theorem C05_null_last_merges_partial (path : List PItem) (n : PItem) (hnull : ∀ p ∈ path, p.name ≠ c!"_")
    (hn : n.name = c!"_") (hs : n.stars ≠ 2) (R : Val) (e r : Dict Key Val) (he : e ≠ [])
    (hR : At (path.map (fun p => Key.s p.name)) R (.dict e)) :
    ∃ R', save false false (.dict r) (path ++ [n]) R = .ok R' ∧
      At (path.map (fun p => Key.s p.name)) R' (.dict (Dict.update e r)) := by
  have hni : NoInt false path := fun p _ => by simp [keyOf]
  have hk := pkeys_NoInt hni
  have hds : isDStar (path ++ [n]) = false := by simp [isDStar, hs]
  have h1 : modAt false (saveElem false (isDStar (path ++ [n])) (.dict r)) [n] (.dict e) = .ok (.dict e, some true) := by
    simp [modAt, onLast, hn, nullName, saveElem, hds, he]
  obtain ⟨R1, h2, _, h3⟩ := modAt_append false _ path [n] hnull R _ _ _ (by rw [hk]; exact hR) h1
  have h3 := h3 rfl; subst h3
  have h4 : valueToList (.dict r) [n] (.dict e) = .ok (.dict (Dict.update e r)) := by
    simp [valueToList, hn, nullName, vtlNull, updateArg]
  obtain ⟨R', h5, h6⟩ := valueToList_append (.dict r) path [n] hnull R1 _ _ hR h4
  refine ⟨R', ?_, h6⟩
  have hp : popNull (path ++ [n]) R1 = path ++ [n] := by
    cases path with
    | nil => cases R1 <;> rfl
    | cons p ps =>
      cases ps with
      | nil => cases R1 <;> simp [popNull, hnull p, nullName]
      | cons q qs => cases R1 <;> simp [popNull, hnull p, nullName]
  simp [save, h2, hp, h5]

example : ∃ R', save false false (.dict [(.s c!"x", .int 1)]) ([⟨c!"a", 0⟩] ++ [⟨c!"_", 0⟩])
      (.dict [(.s c!"a", .dict [(.s c!"y", .int 2)])]) = .ok R' ∧
    At [.s c!"a"] R' (.dict [(.s c!"y", .int 2), (.s c!"x", .int 1)]) :=
  C05_null_last_merges_partial [⟨c!"a", 0⟩] ⟨c!"_", 0⟩ (by decide) rfl (by decide) _ [(.s c!"y", .int 2)]
    [(.s c!"x", .int 1)] (by decide) (At.key (by decide) (At.here _))

/-- C05, the part that holds: a null item in the middle of a path, when the parent record exists (as a dictionary or as
the last record of a list): the effect is that of the path without the null item. Missing: as above. -/
theorem C05_null_middle_skipped_partial (merge : Bool) (data : Val) (path : List PItem) (n q : PItem) (qs : List PItem)
    (hnull : ∀ p ∈ path ++ q :: qs, p.name ≠ c!"_") (hn : n.name = c!"_") (R : Val) (e : Dict Key Val) (xs : List Val)
    (hR : At (path.map (fun p => Key.s p.name)) R (.dict e) ∨
          At (path.map (fun p => Key.s p.name)) R (.list (xs ++ [.dict e]))) :
    save false merge data (path ++ n :: q :: qs) R = save false merge data (path ++ q :: qs) R := by
  obtain ⟨hnp, hnq⟩ := NN_append (p := path) (q := q :: qs) hnull
  have hni : NoInt false path := fun p _ => by simp [keyOf]
  have hds : isDStar (path ++ n :: q :: qs) = isDStar (path ++ q :: qs) := by
    rw [isDStar_append _ _ (by simp), isDStar_append _ _ (by simp)]
    simp [isDStar, List.getLast?_cons_cons]
  have hm : ∀ f : Val → PyM (Val × Bool), modAt false f (path ++ n :: q :: qs) R = modAt false f (path ++ q :: qs) R := by
    intro f
    have hmid := modAt_null_mid f n q qs hn (NN_cons hnq).1 e xs
    rw [← pkeys_NoInt hni] at hR
    rcases hR with h | h
    · exact modAt_append_congr false f path _ _ hnp R _ h hmid.1
    · exact modAt_append_congr false f path _ _ hnp R _ h hmid.2
  have hv : ∀ v, valueToList data (popNull (path ++ n :: q :: qs) R) v = valueToList data (popNull (path ++ q :: qs) R) v := by
    intro v
    rw [popNull_NN (path ++ q :: qs) hnull R]
    have hb : valueToList data (path ++ n :: q :: qs) v = valueToList data (path ++ q :: qs) v :=
      valueToList_append_congr data path _ _ hnp (fun v => valueToList_null_mid data n q qs hn (NN_cons hnq).1 v) v
    cases path with
    | nil => cases R <;> simp_all [popNull, nullName]
    | cons p ps =>
      have hp := (NN_cons hnp).1
      cases ps <;> cases R <;> simp_all [popNull]
  simp only [save, hds, hm, hv]

example : save false false (.dict [(.s c!"x", .int 1)]) ([⟨c!"a", 0⟩] ++ ⟨c!"_", 0⟩ :: ⟨c!"b", 1⟩ :: [])
      (.dict [(.s c!"a", .dict [(.s c!"y", .int 2)])]) =
    save false false (.dict [(.s c!"x", .int 1)]) ([⟨c!"a", 0⟩] ++ ⟨c!"b", 1⟩ :: [])
      (.dict [(.s c!"a", .dict [(.s c!"y", .int 2)])]) :=
  C05_null_middle_skipped_partial false _ [⟨c!"a", 0⟩] ⟨c!"_", 0⟩ ⟨c!"b", 1⟩ [] (by decide) rfl _
    [(.s c!"y", .int 2)] [] (Or.inl (At.key (by decide) (At.here _)))

/-! ## C06 -/

/-- C06 is false of the code: a second record on a numeric plain path replaces the whole results by `None`. -/
theorem C06_numeric_key_second_record_loses_all :
    saveMany true [⟨c!"12", 0⟩] [[(.s c!"x", .int 1)], [(.s c!"x", .int 2)]] (.dict [(.s c!"other", .int 5)]) =
      .ok .none := by decide

/-- C06 is false of the code for every results tree of this shape: whatever else is in the results, a second record for
a top-level numeric path makes `None` of all of it. -/
theorem C06_loses_everything (name : Str) (stars : Nat) (hs : stars ≠ 2) (hname : isdigitS name = true)
    (d e r : Dict Key Val) (he : e ≠ []) (hd : Dict.get? d (.i (natOfDigits name)) = some (.dict e))
    (hno : Dict.get? d (.s name) = none) :
    save true false (.dict r) [⟨name, stars⟩] (.dict d) = .ok .none := by
  have hk : keyOf true name = .i (natOfDigits name) := by simp [keyOf, hname]
  have hn : name ≠ nullName := by
    intro e2; subst e2; simp [isdigitS, nullName] at hname
    revert hname; decide
  have hds : isDStar [(⟨name, stars⟩ : PItem)] = false := by simp [isDStar, hs]
  have hat : At (pkeys true [⟨name, stars⟩]) (.dict d) (.dict e) := by
    simp only [pkeys, List.map_cons, List.map_nil, hk]
    exact At.key hd (At.here _)
  have hf : saveElem false (isDStar [(⟨name, stars⟩ : PItem)]) (.dict r) (.dict e) = .ok (.dict e, true) := by
    simp [saveElem, hds, he]
  obtain ⟨R1, h1, _, h3⟩ := modAt_At true _ [⟨name, stars⟩] (by intro p hp; simp at hp; subst hp; exact hn) _ _ hat _ _ hf
  have h3 := h3 rfl; subst h3
  simp [save, h1, popNull, valueToList, hn, vtlName, hno]

/-- C06, the part that holds: for list paths and `**` paths, and for the first record of a plain path, nothing that is
at a diverging address is lost, with the option on or off. Missing: a plain path whose element already holds a record
(false, see above). -/
theorem C06_no_loss_partial (toInt merge : Bool) (data : Val) (path : List PItem) (hnull : ∀ p ∈ path, p.name ≠ c!"_")
    (R R' : Val) (hno : NoNested R)
    (hcase : merge = true ∨ (∃ p, path.getLast? = some p ∧ p.stars = 2) ∨
      ¬ ∃ e, e ≠ [] ∧ At (pathKeys toInt path) R (.dict e))
    (h : save toInt merge data path R = .ok R') (addr : List Sel) (hdiv : Diverge (keysOf addr) (pathKeys toInt path)) :
    Spec.get addr R' = Spec.get addr R := by
  simp only [pathKeys_eq] at *
  simp only [save, bind_ok_iff] at h
  obtain ⟨⟨R1, b⟩, h1, h2⟩ := h
  have hf := modAt_Frame toInt _ path hnull R _ h1
  by_cases hb : b = some true
  · subst hb
    obtain ⟨_, e, h4, h5, h6, h7⟩ := modAt_flag_true toInt merge data path hnull R R1 hno h1
    rcases hcase with h | ⟨p, hp, hps⟩ | h
    · simp [h] at h6
    · rw [isDStar_of hp, hps] at h7; simp at h7
    · exact absurd ⟨e, h5, h4⟩ h
  · simp only [hb, if_false, pure_ok, Except.ok.injEq] at h2
    rw [← h2]; exact hf addr hdiv

example : ∃ R', save true false (.dict [(.s c!"x", .int 1)]) [⟨c!"12", 1⟩] (.dict [(.s c!"o", .int 5)]) = .ok R' ∧
    Spec.get [.key (.s c!"o")] R' = some (.int 5) := by
  refine ⟨_, rfl, ?_⟩
  rw [C06_no_loss_partial true false (.dict [(.s c!"x", .int 1)]) [⟨c!"12", 1⟩] (by decide) (.dict [(.s c!"o", .int 5)]) _
    (by simp [NoNested, NoNestedD]) (Or.inr (Or.inr (by
      rintro ⟨e, _, h⟩
      simp only [pathKeys, List.map_cons, List.map_nil] at h
      cases h with
      | key hd _ => simp [Dict.get?, Spec.pathKey] at hd; exact absurd hd.1 (by decide)))) rfl _
    (by unfold Diverge; decide)]
  decide

/-! ## C07 -/

/-- C07. The parent path holds a list of records: a record saved below it is saved inside of the last of them, the
earlier records stay as they are. -/
theorem C07_child_goes_to_last_parent (toInt merge : Bool) (data : Val) (parent child : List PItem)
    (hnull : ∀ p ∈ parent ++ child, p.name ≠ c!"_") (hni : NoNumbers toInt (parent ++ child))
    (hchild : child ≠ []) (R : Val) (xs : List Val) (d : Dict Key Val) (hno : NoNested (.dict d))
    (hR : At (pathKeys toInt parent) R (.list (xs ++ [.dict d])))
    (v : Val) (hin : save toInt merge data child (.dict d) = .ok v) :
    ∃ R', save toInt merge data (parent ++ child) R = .ok R' ∧ At (pathKeys toInt parent) R' (.list (xs ++ [v])) := by
  simp only [pathKeys_eq] at *
  replace hni := noInt_of hni
  exact
  save_child toInt merge data parent child hnull hni hchild R xs d hno v hR hin

example : ∃ R', save false false (.dict [(.s c!"x", .int 1)]) ([⟨c!"a", 1⟩] ++ [⟨c!"b", 0⟩])
      (.dict [(.s c!"a", .list [.dict [(.s c!"n", .int 1)], .dict [(.s c!"n", .int 2)]])]) = .ok R' ∧
    At [.s c!"a"] R' (.list ([.dict [(.s c!"n", .int 1)]] ++
      [.dict [(.s c!"n", .int 2), (.s c!"b", .dict [(.s c!"x", .int 1)])]])) :=
  C07_child_goes_to_last_parent false false _ [⟨c!"a", 1⟩] [⟨c!"b", 0⟩] (by decide) (by decide) (by decide) _
    [.dict [(.s c!"n", .int 1)]] [(.s c!"n", .int 2)] (by simp [NoNested, NoNestedD])
    (At.key (by decide) (At.here _)) _ (by decide)

/-! ## C08 -/

/-- C08. A late record (`merge`) is merged into the last record of a list, earlier records stay as they are. -/
theorem C08_late_match_merges_into_last (toInt : Bool) (path : List PItem) (hnull : ∀ p ∈ path, p.name ≠ c!"_")
    (R R' : Val) (xs : List Val) (e r : Dict Key Val) (hr : r ≠ []) (hwf : DeepWF (.dict r))
    (hR : At (pathKeys toInt path) R (.list (xs ++ [.dict e])))
    (h : save toInt true (.dict r) path R = .ok R') :
    ∃ e', At (pathKeys toInt path) R' (.list (xs ++ [.dict e'])) ∧ Merged e r e' := by
  simp only [pathKeys_eq] at *
  cases hm : mergeRec e r with
  | error er =>
    have hf : saveElem true (isDStar path) (.dict r) (.list (xs ++ [.dict e])) = .error er := by
      simp [saveElem, Val.truthy, hr, mergeLast, hm]
    have := modAt_At_err toInt _ path hnull R _ hR er hf
    simp [save, this] at h
  | ok e' =>
    have hf : saveElem true (isDStar path) (.dict r) (.list (xs ++ [.dict e])) = .ok (.list (xs ++ [.dict e']), false) := by
      simp [saveElem, Val.truthy, hr, mergeLast, hm]
    obtain ⟨R2, h1, h2⟩ := save_At toInt true (.dict r) path hnull R _ _ hR hf
    rw [h1] at h; cases h
    exact ⟨e', h2, fun ks v => (mergeRec_Merged ks e r e' hwf hm).1 v, fun ks => (mergeRec_Merged ks e r e' hwf hm).2⟩

/-- C08, the path holds a single record. -/
theorem C08_late_match_merges_into_dict (toInt : Bool) (path : List PItem) (hnull : ∀ p ∈ path, p.name ≠ c!"_")
    (R R' : Val) (e r : Dict Key Val) (hwf : DeepWF (.dict r))
    (hR : At (pathKeys toInt path) R (.dict e)) (h : save toInt true (.dict r) path R = .ok R') :
    ∃ e', At (pathKeys toInt path) R' (.dict e') ∧ Merged e r e' := by
  simp only [pathKeys_eq] at *
  cases hm : mergeRec e r with
  | error er =>
    have hf : saveElem true (isDStar path) (.dict r) (.dict e) = .error er := by simp [saveElem, hm]
    have := modAt_At_err toInt _ path hnull R _ hR er hf
    simp [save, this] at h
  | ok e' =>
    have hf : saveElem true (isDStar path) (.dict r) (.dict e) = .ok (.dict e', false) := by simp [saveElem, hm]
    obtain ⟨R2, h1, h2⟩ := save_At toInt true (.dict r) path hnull R _ _ hR hf
    rw [h1] at h; cases h
    exact ⟨e', h2, fun ks v => (mergeRec_Merged ks e r e' hwf hm).1 v, fun ks => (mergeRec_Merged ks e r e' hwf hm).2⟩

/-- C08: if no value of the late record is a dictionary (always so without group functions) no exception is raised. -/
theorem C08_late_match_no_error (toInt : Bool) (path : List PItem) (hnull : ∀ p ∈ path, p.name ≠ c!"_")
    (R : Val) (xs : List Val) (e r : Dict Key Val) (hr : r ≠ []) (hflat : ∀ kv ∈ r, NotDict kv.2)
    (hR : At (pathKeys toInt path) R (.list (xs ++ [.dict e]))) :
    ∃ R', save toInt true (.dict r) path R = .ok R' ∧ At (pathKeys toInt path) R' (.list (xs ++ [.dict (Dict.update e r)])) := by
  simp only [pathKeys_eq] at *
  exact
  save_At toInt true (.dict r) path hnull R _ _ hR (by
    simp [saveElem, Val.truthy, hr, mergeLast, mergeRec_flat e r hflat])

example : ∃ R', save false true (.dict [(.s c!"x", .int 1)]) [⟨c!"a", 1⟩]
      (.dict [(.s c!"a", .list [.dict [(.s c!"n", .int 1)], .dict [(.s c!"n", .int 2)]])]) = .ok R' ∧
    At [.s c!"a"] R' (.list ([.dict [(.s c!"n", .int 1)]] ++ [.dict [(.s c!"n", .int 2), (.s c!"x", .int 1)]])) :=
  C08_late_match_no_error false [⟨c!"a", 1⟩] (by decide) _ [.dict [(.s c!"n", .int 1)]] [(.s c!"n", .int 2)]
    [(.s c!"x", .int 1)] (by decide) (by simp [NotDict]) (At.key (by decide) (At.here _))

/-! ## C09 -/

/-- C09. If the path is blocked by a scalar value the results stay as they are and no exception is raised. -/
theorem C09_blocked_path_changes_nothing (toInt merge : Bool) (data : Val) (path : List PItem)
    (hnull : ∀ p ∈ path, p.name ≠ c!"_") (R : Val) (hb : Blocked (pathKeys toInt path) R) :
    save toInt merge data path R = .ok R := by
  simp only [pathKeys_eq] at *
  exact
  save_Blocked toInt merge data path hnull R hb

example : save false false (.dict [(.s c!"x", .int 1)]) [⟨c!"a", 0⟩, ⟨c!"b", 0⟩] (.dict [(.s c!"a", .str c!"v")]) =
    .ok (.dict [(.s c!"a", .str c!"v")]) :=
  C09_blocked_path_changes_nothing false false _ [⟨c!"a", 0⟩, ⟨c!"b", 0⟩] (by decide)
    (.dict [(.s c!"a", .str c!"v")]) (Blocked.key rfl (Blocked.here (v := .str c!"v") trivial))

end Props
