import Verif.Spec.Whole
import Verif.Proofs.Line3
import Verif.Proofs.Parser
import Verif.Proofs.Template2
/-! # Lemmas: from a text to matches of lines -/

namespace TTP
open Py Spec Re

/-! ## Texts of lines -/

/-- the text that is searched: a newline before every line and one at the end -/
def nlText : List Str → Str
  | [] => ['\n']
  | l :: ls => '\n' :: (l ++ nlText ls)

/-- position of the newline before a line -/
def posOf (lines : List Str) (i : Nat) : Nat := ((lines.take i).map (fun l => l.length + 1)).sum

theorem nlText_head (ls : List Str) : ∃ r, nlText ls = '\n' :: r := by cases ls <;> exact ⟨_, rfl⟩

theorem nlText_drop (lines : List Str) (i : Nat) (hi : i ≤ lines.length) : (nlText lines).drop (posOf lines i) = nlText (lines.drop i) := by
  induction i generalizing lines with
  | zero => simp [posOf]
  | succ i ih =>
    cases lines with
    | nil => simp at hi
    | cons l ls =>
      have := ih ls (by simpa using hi)
      simp only [posOf, List.take_succ_cons, List.map_cons, List.sum_cons, List.drop_succ_cons]
      rw [← this, nlText]
      have e : l.length + 1 + ((ls.take i).map (fun l => l.length + 1)).sum = (l.length + posOf ls i) + 1 := by simp [posOf]; omega
      rw [e, List.drop_succ_cons, List.drop_append]
      simp

theorem posOf_lt (lines : List Str) (i j : Nat) (hij : i < j) (hj : j ≤ lines.length) : posOf lines i < posOf lines j := by
  induction lines generalizing i j with
  | nil => simp at hj; omega
  | cons l ls ih =>
    cases j with
    | zero => omega
    | succ j =>
      cases i with
      | zero => simp [posOf]; omega
      | succ i =>
        have := ih i j (by omega) (by simpa using hj)
        simp only [posOf, List.take_succ_cons, List.map_cons, List.sum_cons] at *
        omega

/-- a newline in the text is the one before a line, or the last -/
theorem nl_pos (lines : List Str) (hl : ∀ l ∈ lines, '\n' ∉ l) (p : Nat) (x : Str) (h : (nlText lines).drop p = '\n' :: x) :
    ∃ i, i ≤ lines.length ∧ p = posOf lines i := by
  induction lines generalizing p with
  | nil =>
    cases p with
    | zero => exact ⟨0, Nat.le_refl _, rfl⟩
    | succ p => simp [nlText] at h
  | cons l ls ih =>
    cases p with
    | zero => exact ⟨0, by simp, rfl⟩
    | succ p =>
      simp only [nlText, List.drop_succ_cons] at h
      by_cases hp : p < l.length
      · rw [List.drop_append_of_le_length (by omega), List.drop_eq_getElem_cons hp] at h
        injection h with h1 _
        exact absurd (List.getElem_mem hp) (by rw [h1]; exact hl l (by simp))
      · rw [List.drop_append, List.drop_eq_nil_of_le (by omega), List.nil_append] at h
        obtain ⟨i, hi, e⟩ := ih (fun l' h' => hl l' (by simp [h'])) _ h
        refine ⟨i + 1, by simpa using hi, ?_⟩
        simp only [posOf, List.take_succ_cons, List.map_cons, List.sum_cons] at e ⊢
        omega

theorem nlText_join (lines : List Str) (hne : lines ≠ []) : (dataText (join c!"\n" lines)).dropLast = nlText lines := by
  have key : ∀ lines : List Str, lines ≠ [] → '\n' :: (join c!"\n" lines ++ ['\n']) = nlText lines := by
    intro lines
    induction lines with
    | nil => intro h; exact absurd rfl h
    | cons l ls ih =>
      intro _
      cases ls with
      | nil => simp [join, nlText]
      | cons m ms =>
        rw [join_cons _ _ _ (by simp), nlText, ← ih (by simp)]
        simp
  rw [← key lines hne]
  simp only [dataText]
  have : '\n' :: (join c!"\n" lines ++ c!"\n\n") = ('\n' :: (join c!"\n" lines ++ ['\n'])) ++ ['\n'] := by simp
  rw [this, List.dropLast_concat]

theorem slice_nl (lines : List Str) (hne : lines ≠ []) (i : Nat) (hi : i ≤ lines.length) :
    slice (dataText (join c!"\n" lines)) (posOf lines i) none = nlText (lines.drop i) := by
  simp only [slice, nlText_join lines hne, nlText_drop lines i hi]

/-! ## One line of a template -/

/-- the expression of a line -/
def TplRe (l : TplLine) : Re := lineRe false false l.indent (itemEls l.items)

theorem lit_noNL (A B : Prop) (w x : Str) (h : LitMatch A B w x) (hw : ∀ c ∈ w, isSpace c = false) : '\n' ∉ x := by
  intro hm
  have := lit_word A B w x h hw _ hm
  revert this; decide

theorem renders_noNL (items : List (Str × Tok)) (hi : ∀ i ∈ items, TokOK i.2) (x : Str) (v : List (Str × Str))
    (h : Renders items x v) : '\n' ∉ x := by
  induction h with
  | nil => simp
  | cons b b' t ts x y v w hb ht _ ih =>
    have h1 := ih (fun i hi' => hi i (by simp [hi']))
    have h2 := tokText_word t (hi (b, t) (by simp)) x v ht
    have h3 : '\n' ∉ b' := by
      rcases hb with ⟨_, rfl⟩ | ⟨_, hb⟩
      · simp
      · intro hm
        rcases hb.2 _ hm with h | h <;> revert h <;> decide
    have h4 : '\n' ∉ x := by
      intro hm
      have := h2.2 _ hm
      revert this; decide
    simp [h1, h3, h4]

theorem items_tokOK (items : List (Str × Tok)) (ho : ItemsOK items) : ∀ i ∈ items, TokOK i.2 := by
  cases items with
  | nil => exact absurd ho id
  | cons i ts =>
    obtain ⟨b, t⟩ := i
    obtain ⟨_, h1, h2⟩ := ho
    intro j hj
    rcases List.mem_cons.1 hj with rfl | hj
    · exact h1
    · exact (h2 j hj).2

theorem blank_noNL (b : Str) (h : ∀ c ∈ b, Blank c) : '\n' ∉ b := by
  intro hm
  rcases h _ hm with h | h <;> revert h <;> decide

/-- a match of the expression at the beginning of a line is a fitting line -/
theorem tplRe_mem (l : TplLine) (ho : l.OK) (s : Str) (h : Re.Hit) :
    h ∈ run (TplRe l) s ↔ ∃ x b, Renders l.items x h.2.2 ∧ (∀ c ∈ b, Blank c) ∧ (c!"\n" <+: h.2.1 ∨ c!"\r\n" <+: h.2.1) ∧
      h.1 = '\n' :: (l.indent ++ (x ++ b)) ∧ h.1 ++ h.2.1 = s := by
  unfold TplRe
  rw [mem_lineRe, cutElems_items _ _ (itemEls_noCut l.items)]
  constructor
  · rintro ⟨h1, b, m1, m2, hb, hn, e1, e2, e3⟩
    rw [mem_line l.items ho.items] at m1
    exact ⟨h1.1, b, by rw [e3]; exact m1.1, hb, hn, e1, e2⟩
  · rintro ⟨x, b, hr, hb, hn, e1, e2⟩
    refine ⟨(x, b ++ h.2.1, h.2.2), b, ?_, rfl, hb, hn, e1, e2, rfl⟩
    rw [mem_line l.items ho.items]
    exact ⟨hr, rfl⟩

/-- a newline is where the text goes on -/
theorem nl_split (a b r s : Str) (ha : '\n' ∉ a) (hb : '\n' ∉ b) (h : a ++ '\n' :: r = b ++ '\n' :: s) : a = b ∧ r = s := by
  induction a generalizing b with
  | nil =>
    cases b with
    | nil => simpa using h
    | cons c b =>
      simp only [List.nil_append, List.cons_append, List.cons.injEq] at h
      exact absurd (by rw [h.1]; simp) hb
  | cons c a ih =>
    cases b with
    | nil =>
      simp only [List.nil_append, List.cons_append, List.cons.injEq] at h
      exact absurd (by rw [← h.1]; simp) ha
    | cons d b =>
      simp only [List.cons_append, List.cons.injEq] at h
      obtain ⟨e1, e2⟩ := ih b (fun h' => ha (by simp [h'])) (fun h' => hb (by simp [h'])) h.2
      exact ⟨by rw [h.1, e1], e2⟩

/-- all ways to match a line have the values with which it fits -/
theorem tplRe_run (l : TplLine) (ho : l.OK) (t : Str) (ht : '\n' ∉ t) (rest : Str) :
    (∀ h ∈ run (TplRe l) ('\n' :: (t ++ '\n' :: rest)), l.Fits t h.2.2) ∧
    ∀ v, l.Fits t v → ∃ h ∈ run (TplRe l) ('\n' :: (t ++ '\n' :: rest)), h.2.2 = v := by
  have hx : ∀ x v, Renders l.items x v → '\n' ∉ x := fun x v h => renders_noNL _ (items_tokOK _ ho.items) x v h
  constructor
  · intro h hm
    rw [tplRe_mem l ho] at hm
    obtain ⟨x, b, hr, hb, hn, e1, e2⟩ := hm
    have hpre : '\n' ∉ l.indent ++ (x ++ b) := by
      simp [blank_noNL _ ho.indent, blank_noNL _ hb, hx x _ hr]
    rcases hn with ⟨r, e⟩ | ⟨r, e⟩
    · rw [e1, ← e] at e2
      simp only [List.cons_append, List.cons.injEq, true_and, List.nil_append, List.append_assoc] at e2
      obtain ⟨e3, _⟩ := nl_split (l.indent ++ (x ++ b)) t r rest hpre ht (by simpa using e2)
      exact ⟨x, b, [], hr, hb, Or.inl rfl, by rw [← e3]; simp⟩
    · rw [e1, ← e] at e2
      simp only [List.cons_append, List.cons.injEq, true_and, List.nil_append, List.append_assoc] at e2
      obtain ⟨e3, _⟩ := nl_split (l.indent ++ (x ++ b) ++ c!"\r") t r rest (by
        intro hm
        rcases List.mem_append.1 hm with hm | hm
        · exact hpre hm
        · revert hm; decide) ht (by simpa using e2)
      exact ⟨x, b, c!"\r", hr, hb, Or.inr rfl, by rw [← e3]; simp⟩
  · rintro v ⟨x, b, r, hr, hb, hre, rfl⟩
    refine ⟨('\n' :: (l.indent ++ (x ++ b)), r ++ '\n' :: rest, v), ?_, rfl⟩
    rw [tplRe_mem l ho]
    refine ⟨x, b, hr, hb, ?_, rfl, by simp⟩
    rcases hre with rfl | rfl
    · exact Or.inl ⟨rest, rfl⟩
    · exact Or.inr ⟨rest, rfl⟩

theorem fits_unique (l : TplLine) (ho : l.OK) (t : Str) (v v' : List (Str × Str)) (h : l.Fits t v) (h' : l.Fits t v') : v = v' := by
  obtain ⟨x, b, r, h1, h2, h3, rfl⟩ := h
  obtain ⟨x', b', r', h1', h2', h3', e⟩ := h'
  have e2 : x ++ (b ++ r) = x' ++ (b' ++ r') := by
    have : l.indent ++ (x ++ (b ++ r)) = l.indent ++ (x' ++ (b' ++ r')) := by simpa using e
    exact List.append_cancel_left this
  have sn : ∀ b r : Str, (∀ c ∈ b, Blank c) → (r = [] ∨ r = c!"\r") → SpaceNext (b ++ r) := by
    intro b r hb hr c cs e
    cases b with
    | nil =>
      rcases hr with rfl | rfl
      · cases e
      · injection e with e1 _; rw [← e1]; decide
    | cons d b =>
      injection e with e1 _
      rw [← e1]; exact blank_space d (hb d (by simp))
  exact (renders_unique l.items ho.items x x' _ _ v v' h1 h1' (sn b r h2 h3) (sn b' r' h2' h3') e2).2.2

theorem renders_names (items : List (Str × Tok)) (x : Str) (v : List (Str × Str)) (h : Renders items x v) :
    v.map Prod.fst = tokNames items := by
  induction h with
  | nil => rfl
  | cons b b' t ts x y v w _ ht _ ih =>
    cases t with
    | word u => obtain ⟨_, rfl⟩ := ht; simpa [tokNames] using ih
    | var p n q => obtain ⟨u, _, _, rfl⟩ := ht; simpa [tokNames] using ih

theorem fits_names (l : TplLine) (t : Str) (v : List (Str × Str)) (h : l.Fits t v) : v.map Prod.fst = tokNames l.items := by
  obtain ⟨x, b, r, h1, _⟩ := h
  exact renders_names _ _ _ h1

/-- every hit begins with a newline and has no other -/
theorem tplRe_nl (l : TplLine) (ho : l.OK) (s : Str) (h : Re.Hit) (hm : h ∈ run (TplRe l) s) : ∃ x, h.1 = '\n' :: x ∧ '\n' ∉ x := by
  rw [tplRe_mem l ho] at hm
  obtain ⟨x, b, hr, hb, _, e1, _⟩ := hm
  refine ⟨_, e1, ?_⟩
  simp [blank_noNL _ ho.indent, blank_noNL _ hb, renders_noNL _ (items_tokOK _ ho.items) x _ hr]

/-- The matches of a template line in a text are the lines that fit. -/
theorem tplRe_finditer (l : TplLine) (ho : l.OK) (lines : List Str) (hl : ∀ t ∈ lines, '\n' ∉ t) (p : Nat) (v : List (Str × Str)) :
    (∃ m ∈ finditer (TplRe l) (nlText lines), m.start = p ∧ m.caps = v) ↔
      ∃ i t, lines[i]? = some t ∧ p = posOf lines i ∧ l.Fits t v := by
  have nlrest : ∀ ls : List Str, ∃ r, nlText ls = '\n' :: r := nlText_head
  have at_line : ∀ i t, lines[i]? = some t → ∃ rest, (nlText lines).drop (posOf lines i) = '\n' :: (t ++ '\n' :: rest) := by
    intro i t hi
    obtain ⟨hlt, e⟩ := List.getElem?_eq_some_iff.1 hi
    rw [nlText_drop lines i (by omega), List.drop_eq_getElem_cons hlt, nlText, e]
    obtain ⟨r, hr⟩ := nlrest (lines.drop (i + 1))
    exact ⟨r, by rw [hr]⟩
  constructor
  · rintro ⟨m, hm, rfl, rfl⟩
    obtain ⟨_, h, tl, hrun, _, e2⟩ := finditer_sound _ _ m hm
    have hmem : h ∈ run (TplRe l) ((nlText lines).drop m.start) := by rw [hrun]; simp
    obtain ⟨x, hx, _⟩ := tplRe_nl l ho _ h hmem
    have hsp := run_split _ _ _ hmem
    rw [hx] at hsp
    obtain ⟨i, hi, ep⟩ := nl_pos lines hl m.start _ hsp.symm
    by_cases hlt : i < lines.length
    · refine ⟨i, lines[i], List.getElem?_eq_getElem hlt, ep, ?_⟩
      obtain ⟨rest, hr⟩ := at_line i lines[i] (List.getElem?_eq_getElem hlt)
      rw [ep, hr] at hmem
      rw [e2]
      exact (tplRe_run l ho lines[i] (hl _ (List.getElem_mem hlt)) rest).1 h hmem
    · exfalso
      have e : i = lines.length := by omega
      rw [ep, nlText_drop lines i hi, e, List.drop_length, nlText] at hmem
      rw [tplRe_mem l ho] at hmem
      obtain ⟨x, b, hr, _, hn, e1, e2⟩ := hmem
      rw [e1] at e2
      simp only [List.cons_append, List.cons.injEq, true_and, List.append_eq_nil_iff] at e2
      rw [e2.2] at hn
      simp at hn
  · rintro ⟨i, t, hi, rfl, hf⟩
    obtain ⟨rest, hr⟩ := at_line i t hi
    have htn : '\n' ∉ t := hl t (List.mem_of_getElem? hi)
    obtain ⟨h, hm, _⟩ := (tplRe_run l ho t htn rest).2 v hf
    rw [← hr] at hm
    cases hrun : run (TplRe l) ((nlText lines).drop (posOf lines i)) with
    | nil => rw [hrun] at hm; cases hm
    | cons h0 tl =>
      obtain ⟨m, m1, m2, _, m4⟩ := finditer_nl (TplRe l) (nlText lines) (fun s h hm => tplRe_nl l ho s h hm) (posOf lines i) h0 tl hrun
      refine ⟨m, m1, m2, ?_⟩
      rw [m4]
      have : h0 ∈ run (TplRe l) ('\n' :: (t ++ '\n' :: rest)) := by rw [← hr, hrun]; simp
      exact fits_unique l ho t _ _ ((tplRe_run l ho t htn rest).1 h0 this) hf

end TTP
