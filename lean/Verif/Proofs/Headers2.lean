import Verif.Proofs.Headers
/-! # Lemmas: loading of a line of headings -/

namespace TTP
open Py Spec Re

/-! ## Headings -/

theorem cut_word (cur w s : Str) (hw : ∀ c ∈ w, isSpace c = false) : cutHeadings cur false (w ++ s) = cutHeadings (cur ++ w) false s := by
  induction w generalizing cur with
  | nil => simp
  | cons c w ih =>
    rw [List.cons_append, cutHeadings]
    simp only [hw c (by simp), Bool.false_eq_true, if_false]
    rw [ih _ (fun d hd => hw d (by simp [hd]))]
    simp

theorem cut_gap (cur b s : Str) (x : Bool) (hc : cur ≠ []) (hb : ∀ c ∈ b, isSpace c = true) (hne : b ≠ []) :
    cutHeadings cur x (b ++ s) = cutHeadings (cur ++ b) true s := by
  induction b generalizing cur x with
  | nil => exact absurd rfl hne
  | cons c b ih =>
    rw [List.cons_append, cutHeadings]
    simp only [hb c (by simp), if_true, hc, if_false]
    cases b with
    | nil => simp
    | cons d b =>
      rw [ih _ _ (by simp) (fun e he => hb e (by simp [he])) (by simp)]
      simp

theorem cut_lead (b s : Str) (hb : ∀ c ∈ b, isSpace c = true) : cutHeadings [] false (b ++ s) = cutHeadings [] false s := by
  induction b with
  | nil => rfl
  | cons c b ih =>
    rw [List.cons_append, cutHeadings]
    simp only [hb c (by simp), if_true]
    exact ih (fun e he => hb e (by simp [he]))

/-- a heading with blanks after it -/
def colText (c : Str × Str) : Str := c.1 ++ c.2

theorem cut_cols (cs : List (Str × Str)) (n : Str) (hn : n ≠ []) (hns : ∀ c ∈ n, isSpace c = false)
    (hw : ∀ c ∈ cs, c.1 ≠ [] ∧ (∀ d ∈ c.1, isSpace d = false) ∧ c.2 ≠ [] ∧ ∀ d ∈ c.2, isSpace d = true) (cur : Str) (hc : cur ≠ []) :
    cutHeadings cur true ((cs.map colText).flatten ++ n) = cur :: (cs.map colText ++ [n]) := by
  induction cs generalizing cur with
  | nil =>
    obtain ⟨c, t, rfl⟩ := List.exists_cons_of_ne_nil hn
    simp only [List.map_nil, List.flatten_nil, List.nil_append]
    rw [cutHeadings]
    simp only [hns c (by simp), Bool.false_eq_true, if_false, if_true]
    have := cut_word [c] t [] (fun d hd => hns d (by simp [hd]))
    rw [List.append_nil] at this
    rw [this]
    simp [cutHeadings]
  | cons a cs ih =>
    obtain ⟨h1, h2, h3, h4⟩ := hw a (by simp)
    obtain ⟨w, g⟩ := a
    simp only at h1 h2 h3 h4
    obtain ⟨c, t, rfl⟩ := List.exists_cons_of_ne_nil h1
    simp only [List.map_cons, List.flatten_cons, colText, List.cons_append, List.append_assoc]
    rw [cutHeadings]
    simp only [h2 c (by simp), Bool.false_eq_true, if_false, if_true]
    rw [cut_word [c] t _ (fun d hd => h2 d (by simp [hd])), cut_gap _ g _ _ (by simp) h4 h3]
    have := ih (fun a ha => hw a (by simp [ha])) ([c] ++ t ++ g) (by simp)
    rw [this]
    simp

theorem headings_cols (indent : Str) (hi : ∀ c ∈ indent, isSpace c = true) (cs : List (Str × Str)) (n : Str) (hn : n ≠ [])
    (hns : ∀ c ∈ n, isSpace c = false)
    (hw : ∀ c ∈ cs, c.1 ≠ [] ∧ (∀ d ∈ c.1, isSpace d = false) ∧ c.2 ≠ [] ∧ ∀ d ∈ c.2, isSpace d = true) :
    headings (indent ++ ((cs.map colText).flatten ++ n)) = cs.map colText ++ [n] := by
  unfold headings
  rw [cut_lead _ _ hi]
  cases cs with
  | nil =>
    have := cut_word [] n [] hns
    simp only [List.append_nil, List.nil_append] at this
    simp only [List.map_nil, List.flatten_nil, List.nil_append, this, cutHeadings, hn, if_false]
  | cons a cs =>
    obtain ⟨h1, h2, h3, h4⟩ := hw a (by simp)
    simp only [List.map_cons, List.flatten_cons, List.append_assoc, colText]
    rw [cut_word [] a.1 _ h2, cut_gap _ a.2 _ _ (by simpa using h1) h4 h3]
    have := cut_cols cs n hn hns (fun a ha => hw a (by simp [ha])) ([] ++ a.1 ++ a.2) (by simp [h1])
    rw [this]
    simp [colText]

theorem expandTabs_blanks (b : Str) (hb : ∀ c ∈ b, Blank c) : (expandTabs b).length = blankWidth b ∧ ∀ c ∈ expandTabs b, isSpace c = true := by
  induction b with
  | nil => simp [expandTabs, blankWidth]
  | cons c b ih =>
    obtain ⟨h1, h2⟩ := ih (fun d hd => hb d (by simp [hd]))
    unfold expandTabs blankWidth at *
    rcases hb c (by simp) with rfl | rfl
    · simp only [List.flatMap_cons, List.length_append, h1, List.map_cons, List.sum_cons]
      refine ⟨by simp, ?_⟩
      intro d hd
      rcases List.mem_append.1 hd with hd | hd
      · simp at hd; subst hd; decide
      · exact h2 d hd
    · simp only [List.flatMap_cons, List.length_append, h1, List.map_cons, List.sum_cons]
      refine ⟨by simp, ?_⟩
      intro d hd
      rcases List.mem_append.1 hd with hd | hd
      · simp at hd; subst hd; decide
      · exact h2 d hd

theorem headingIndent_cols (b : Str) (hb : ∀ c ∈ b, Blank c) (c : Char) (s : Str) (hc : isSpace c = false) :
    headingIndent (b ++ c :: s) = blankWidth b := by
  obtain ⟨h1, h2⟩ := expandTabs_blanks b hb
  have hct : c ≠ '\t' := by rintro rfl; revert hc; decide
  have he : expandTabs (b ++ c :: s) = expandTabs b ++ c :: expandTabs s := by
    simp [expandTabs, List.flatMap_append, hct]
  unfold headingIndent
  rw [he]
  have : lstrip (expandTabs b ++ c :: expandTabs s) = c :: expandTabs s := by
    unfold lstrip
    rw [dropWhile_all _ _ _ h2, List.dropWhile_cons_of_neg (by simp [hc])]
  rw [this, List.length_append, h1]
  omega

/-! ## Columns of a line of headings -/

theorem blank_isSpace (b : Str) (h : ∀ c ∈ b, Blank c) : ∀ c ∈ b, isSpace c = true := fun c hc => blank_space c (h c hc)

theorem word_nospace (n : Str) (h : ∀ c ∈ n, isWord c = true) : ∀ c ∈ n, isSpace c = false := fun c hc => word_space c (h c hc)

theorem ends_of_word (n : Str) (hne : n ≠ []) (h : ∀ c ∈ n, isSpace c = false) :
    (∃ c t, n = c :: t ∧ isSpace c = false) ∧ ∃ t c, n = t ++ [c] ∧ isSpace c = false := by
  constructor
  · obtain ⟨c, t, rfl⟩ := List.exists_cons_of_ne_nil hne
    exact ⟨c, t, rfl, h c (by simp)⟩
  · refine ⟨n.dropLast, n.getLast hne, (List.dropLast_concat_getLast hne).symm, h _ (List.getLast_mem hne)⟩

/-- headings without the last one, and the last one with its blanks -/
theorem HeadLine_split (l : HeadLine) (h : l.OK) : ∃ cs n g, l.cols = cs ++ [(n, g)] := by
  refine ⟨l.cols.dropLast, (l.cols.getLast h.some).1, (l.cols.getLast h.some).2, ?_⟩
  exact (List.dropLast_concat_getLast h.some).symm

end TTP
