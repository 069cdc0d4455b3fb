import Verif.Py.Regex
/-! # Facts about the regular expression engine -/

namespace Py
namespace Re

theorem mem_seq (a b : Re) (s : Str) (h : Hit) :
    h ∈ run (.seq a b) s ↔ ∃ h1 ∈ run a s, ∃ h2 ∈ run b h1.2.1, h = (h1.1 ++ h2.1, h2.2.1, h1.2.2 ++ h2.2.2) := by
  simp only [run, List.mem_flatMap, List.mem_map]
  constructor
  · rintro ⟨h1, m1, h2, m2, e⟩; exact ⟨h1, m1, h2, m2, e.symm⟩
  · rintro ⟨h1, m1, h2, m2, e⟩; exact ⟨h1, m1, h2, m2, e.symm⟩

theorem mem_alt (a b : Re) (s : Str) (h : Hit) : h ∈ run (.alt a b) s ↔ h ∈ run a s ∨ h ∈ run b s := by
  simp only [run, List.mem_append]

theorem mem_cap (n : Str) (r : Re) (s : Str) (h : Hit) :
    h ∈ run (.cap n r) s ↔ ∃ h1 ∈ run r s, h = (h1.1, h1.2.1, h1.2.2 ++ [(n, h1.1)]) := by
  simp only [run, List.mem_map]
  constructor
  · rintro ⟨h1, m1, e⟩; exact ⟨h1, m1, e.symm⟩
  · rintro ⟨h1, m1, e⟩; exact ⟨h1, m1, e.symm⟩

theorem mem_look (r : Re) (s : Str) (h : Hit) : h ∈ run (.look r) s ↔ (∃ h1, h1 ∈ run r s) ∧ h = ([], s, []) := by
  simp only [run]
  split
  · rename_i he
    rw [List.isEmpty_iff] at he
    simp [he]
  · rename_i he
    simp only [List.mem_singleton]
    constructor
    · intro e
      refine ⟨?_, e⟩
      cases hr : run r s with
      | nil => simp [hr] at he
      | cons a as => exact ⟨a, by simp⟩
    · exact fun e => e.2

theorem mem_cls (c : CC) (s : Str) (h : Hit) :
    h ∈ run (.cls c) s ↔ ∃ x xs, s = x :: xs ∧ c.test x = true ∧ h = ([x], xs, []) := by
  cases s with
  | nil => simp [run]
  | cons x xs =>
    simp only [run]
    split
    · rename_i ht
      simp only [List.mem_singleton, List.cons.injEq]
      constructor
      · intro e; exact ⟨x, xs, ⟨rfl, rfl⟩, ht, e⟩
      · rintro ⟨_, _, ⟨rfl, rfl⟩, _, e⟩; exact e
    · rename_i ht
      simp only [List.not_mem_nil, List.cons.injEq, false_iff]
      rintro ⟨_, _, ⟨rfl, rfl⟩, h2, _⟩; exact ht h2

theorem mem_eps (s : Str) (h : Hit) : h ∈ run .eps s ↔ h = ([], s, []) := by simp [run]

/-- members of the loop worker -/
theorem mem_starRun (m : Str → List Hit) (g : Bool) (n : Nat) (s : Str) (h : Hit) :
    h ∈ starRun m g n s ↔ h = ([], s, []) ∨ ∃ k, n = k + 1 ∧ ∃ h1 ∈ m s, h1.1 ≠ [] ∧
      ∃ h2 ∈ starRun m g k h1.2.1, h = (h1.1 ++ h2.1, h2.2.1, h1.2.2 ++ h2.2.2) := by
  cases n with
  | zero => simp [starRun]
  | succ n =>
    have : h ∈ starRun m g (n + 1) s ↔ h = ([], s, []) ∨ h ∈ ((m s).filter (fun h => !h.1.isEmpty)).flatMap fun h =>
        (starRun m g n h.2.1).map fun h2 => (h.1 ++ h2.1, h2.2.1, h.2.2 ++ h2.2.2) := by
      simp only [starRun]
      cases g
      · simp
      · simp [or_comm]
    rw [this]
    apply or_congr Iff.rfl
    simp only [List.mem_flatMap, List.mem_filter, List.mem_map, Bool.not_eq_true', List.isEmpty_eq_false_iff, ne_eq,
      Nat.add_right_cancel_iff, exists_eq_left']
    constructor
    · rintro ⟨h1, ⟨m1, ne⟩, h2, m2, e⟩; exact ⟨h1, m1, ne, h2, m2, e.symm⟩
    · rintro ⟨h1, m1, ne, h2, m2, e⟩; exact ⟨h1, ⟨m1, ne⟩, h2, m2, e.symm⟩

/-- What is matched and what is left make up the input. -/
theorem run_split (r : Re) (s : Str) (h : Hit) (hm : h ∈ run r s) : h.1 ++ h.2.1 = s := by
  induction r generalizing s h with
  | eps => rw [mem_eps] at hm; subst hm; rfl
  | cls c => rw [mem_cls] at hm; obtain ⟨x, xs, rfl, _, rfl⟩ := hm; rfl
  | seq a b iha ihb =>
    rw [mem_seq] at hm
    obtain ⟨h1, m1, h2, m2, rfl⟩ := hm
    have e1 := iha s h1 m1
    have e2 := ihb _ h2 m2
    simp only [List.append_assoc, e2, e1]
  | alt a b iha ihb =>
    rw [mem_alt] at hm
    rcases hm with hm | hm
    · exact iha s h hm
    · exact ihb s h hm
  | star g r ih =>
    have : ∀ n s h, h ∈ starRun (run r) g n s → h.1 ++ h.2.1 = s := by
      intro n
      induction n with
      | zero => intro s h hm; simp only [starRun, List.mem_singleton] at hm; subst hm; rfl
      | succ n ihn =>
        intro s h hm
        rw [mem_starRun] at hm
        rcases hm with rfl | ⟨k, ek, h1, m1, _, h2, m2, rfl⟩
        · rfl
        · cases ek
          have e1 := ih s h1 m1
          have e2 := ihn _ h2 m2
          simp only [List.append_assoc, e2, e1]
    exact this _ s h hm
  | cap n r ih => rw [mem_cap] at hm; obtain ⟨h1, m1, rfl⟩ := hm; exact ih s h1 m1
  | look r ih => rw [mem_look] at hm; rw [hm.2]; rfl
  | eos =>
    simp only [run] at hm
    split at hm
    · simp only [List.mem_singleton] at hm; subst hm; rfl
    · cases hm

/-- Every captured text is a piece of the matched text. -/
theorem caps_infix (r : Re) (s : Str) (h : Hit) (hm : h ∈ run r s) : ∀ c ∈ h.2.2, c.2 <:+: h.1 := by
  induction r generalizing s h with
  | eps => rw [mem_eps] at hm; subst hm; simp
  | cls c => rw [mem_cls] at hm; obtain ⟨x, xs, rfl, _, rfl⟩ := hm; simp
  | seq a b iha ihb =>
    rw [mem_seq] at hm
    obtain ⟨h1, m1, h2, m2, rfl⟩ := hm
    intro c hc
    rcases List.mem_append.1 hc with hc | hc
    · exact (iha s h1 m1 c hc).trans (List.prefix_append _ _).isInfix
    · exact (ihb _ h2 m2 c hc).trans (List.suffix_append _ _).isInfix
  | alt a b iha ihb =>
    rw [mem_alt] at hm
    rcases hm with hm | hm
    · exact iha s h hm
    · exact ihb s h hm
  | star g r ih =>
    have : ∀ n s h, h ∈ starRun (run r) g n s → ∀ c ∈ h.2.2, c.2 <:+: h.1 := by
      intro n
      induction n with
      | zero => intro s h hm; simp only [starRun, List.mem_singleton] at hm; subst hm; simp
      | succ n ihn =>
        intro s h hm
        rw [mem_starRun] at hm
        rcases hm with rfl | ⟨k, ek, h1, m1, _, h2, m2, rfl⟩
        · simp
        · cases ek
          intro c hc
          rcases List.mem_append.1 hc with hc | hc
          · exact (ih s h1 m1 c hc).trans (List.prefix_append _ _).isInfix
          · exact (ihn _ h2 m2 c hc).trans (List.suffix_append _ _).isInfix
    exact this _ s h hm
  | cap n r ih =>
    rw [mem_cap] at hm
    obtain ⟨h1, m1, rfl⟩ := hm
    intro c hc
    rcases List.mem_append.1 hc with hc | hc
    · exact ih s h1 m1 c hc
    · simp only [List.mem_singleton] at hc; subst hc; exact List.infix_rfl
  | look r ih => rw [mem_look] at hm; rw [hm.2]; simp
  | eos =>
    simp only [run] at hm
    split at hm
    · simp only [List.mem_singleton] at hm; subst hm; simp
    · cases hm

theorem mem_lits (w s : Str) (h : Hit) : h ∈ run (lits w) s ↔ h.1 = w ∧ w ++ h.2.1 = s ∧ h.2.2 = [] := by
  induction w generalizing s h with
  | nil =>
    simp only [lits, mem_eps]
    obtain ⟨a, b, c⟩ := h
    simp only [Prod.mk.injEq, List.nil_append]
  | cons x w ih =>
    simp only [lits, mem_seq, mem_cls]
    constructor
    · rintro ⟨h1, ⟨y, ys, rfl, ht, rfl⟩, h2, m2, rfl⟩
      obtain ⟨e1, e2, e3⟩ := (ih _ _).1 m2
      simp only [CC.test, beq_iff_eq] at ht
      subst ht
      refine ⟨by simp [e1], ?_, by simp [e3]⟩
      simp only [List.cons_append]; rw [e2]
    · obtain ⟨a, b, c⟩ := h
      rintro ⟨e1, e2, e3⟩
      simp only at e1 e2 e3
      subst e1 e3
      refine ⟨([x], w ++ b, []), ⟨x, w ++ b, e2.symm, by simp [CC.test], rfl⟩, (w, b, []), ?_, rfl⟩
      exact (ih _ _).2 ⟨rfl, rfl, rfl⟩

/-- loop over one character class -/
theorem mem_star_cls (g : Bool) (c : CC) (s : Str) (h : Hit) :
    h ∈ run (.star g (.cls c)) s ↔ (∀ x ∈ h.1, c.test x = true) ∧ h.1 ++ h.2.1 = s ∧ h.2.2 = [] := by
  have : ∀ n s h, s.length ≤ n → (h ∈ starRun (run (.cls c)) g n s ↔
      (∀ x ∈ h.1, c.test x = true) ∧ h.1 ++ h.2.1 = s ∧ h.2.2 = []) := by
    intro n
    induction n with
    | zero =>
      intro s h hn
      have : s = [] := List.length_eq_zero_iff.1 (by omega)
      subst this
      obtain ⟨a, b, d⟩ := h
      simp only [starRun, List.mem_singleton, Prod.mk.injEq, List.append_eq_nil_iff]
      constructor
      · rintro ⟨rfl, rfl, rfl⟩; simp
      · rintro ⟨_, ⟨h1, h2⟩, h3⟩; exact ⟨h1, h2, h3⟩
    | succ n ihn =>
      intro s h hn
      rw [mem_starRun]
      constructor
      · rintro (rfl | ⟨k, ek, h1, m1, _, h2, m2, rfl⟩)
        · simp
        · cases ek
          rw [mem_cls] at m1
          obtain ⟨x, xs, rfl, ht, rfl⟩ := m1
          obtain ⟨e1, e2, e3⟩ := (ihn xs h2 (by simpa using hn)).1 m2
          refine ⟨?_, by simp [e2], by simp [e3]⟩
          intro y hy
          simp only [List.cons_append, List.nil_append, List.mem_cons] at hy
          rcases hy with rfl | hy
          · exact ht
          · exact e1 y hy
      · obtain ⟨a, b, d⟩ := h
        rintro ⟨e1, e2, e3⟩
        simp only at e1 e2 e3
        subst e3
        cases a with
        | nil => simp only [List.nil_append] at e2; subst e2; exact Or.inl rfl
        | cons x a =>
          right
          refine ⟨n, rfl, ([x], a ++ b, []), ?_, by simp, (a, b, []), ?_, rfl⟩
          · rw [mem_cls]; exact ⟨x, a ++ b, e2.symm, e1 x (by simp), rfl⟩
          · refine (ihn (a ++ b) (a, b, []) ?_).2 ⟨fun y hy => e1 y (by simp [hy]), rfl, rfl⟩
            have : s.length = (a ++ b).length + 1 := by rw [← e2]; simp
            omega
  exact this _ s h (Nat.le_refl _)

theorem mem_plus_cls (g : Bool) (c : CC) (s : Str) (h : Hit) :
    h ∈ run (plus g (.cls c)) s ↔ h.1 ≠ [] ∧ (∀ x ∈ h.1, c.test x = true) ∧ h.1 ++ h.2.1 = s ∧ h.2.2 = [] := by
  rw [plus, mem_seq]
  constructor
  · rintro ⟨h1, m1, h2, m2, rfl⟩
    rw [mem_cls] at m1
    obtain ⟨x, xs, rfl, ht, rfl⟩ := m1
    obtain ⟨e1, e2, e3⟩ := (mem_star_cls g c xs h2).1 m2
    refine ⟨by simp, ?_, by simp [e2], by simp [e3]⟩
    intro y hy
    simp only [List.cons_append, List.nil_append, List.mem_cons] at hy
    rcases hy with rfl | hy
    · exact ht
    · exact e1 y hy
  · obtain ⟨a, b, d⟩ := h
    rintro ⟨e0, e1, e2, e3⟩
    simp only at e0 e1 e2 e3
    subst e3
    cases a with
    | nil => exact absurd rfl e0
    | cons x a =>
      refine ⟨([x], a ++ b, []), ?_, (a, b, []), ?_, rfl⟩
      · rw [mem_cls]; exact ⟨x, a ++ b, e2.symm, e1 x (by simp), rfl⟩
      · exact (mem_star_cls g c _ _).2 ⟨fun y hy => e1 y (by simp [hy]), rfl, rfl⟩

/-- no class of the expression contains newline -/
def noNL : Re → Bool
  | .eps => true
  | .cls c => !c.test '\n'
  | .seq a b => noNL a && noNL b
  | .alt a b => noNL a && noNL b
  | .star _ r => noNL r
  | .cap _ r => noNL r
  | .look _ => true
  | .eos => true

theorem noNL_run (r : Re) (hr : noNL r = true) (s : Str) (h : Hit) (hm : h ∈ run r s) : '\n' ∉ h.1 := by
  induction r generalizing s h with
  | eps => rw [mem_eps] at hm; subst hm; simp
  | cls c =>
    rw [mem_cls] at hm; obtain ⟨x, xs, rfl, ht, rfl⟩ := hm
    simp only [noNL, Bool.not_eq_true'] at hr
    simp only [List.mem_singleton]
    intro e; rw [← e] at ht; rw [ht] at hr; cases hr
  | seq a b iha ihb =>
    simp only [noNL, Bool.and_eq_true] at hr
    rw [mem_seq] at hm
    obtain ⟨h1, m1, h2, m2, rfl⟩ := hm
    simp only [List.mem_append, not_or]
    exact ⟨iha hr.1 s h1 m1, ihb hr.2 _ h2 m2⟩
  | alt a b iha ihb =>
    simp only [noNL, Bool.and_eq_true] at hr
    rw [mem_alt] at hm
    rcases hm with hm | hm
    · exact iha hr.1 s h hm
    · exact ihb hr.2 s h hm
  | star g r ih =>
    simp only [noNL] at hr
    have : ∀ n s h, h ∈ starRun (run r) g n s → '\n' ∉ h.1 := by
      intro n
      induction n with
      | zero => intro s h hm; simp only [starRun, List.mem_singleton] at hm; subst hm; simp
      | succ n ihn =>
        intro s h hm
        rw [mem_starRun] at hm
        rcases hm with rfl | ⟨k, ek, h1, m1, _, h2, m2, rfl⟩
        · simp
        · cases ek
          simp only [List.mem_append, not_or]
          exact ⟨ih hr s h1 m1, ihn _ h2 m2⟩
    exact this _ s h hm
  | cap n r ih => rw [mem_cap] at hm; obtain ⟨h1, m1, rfl⟩ := hm; exact ih hr s h1 m1
  | look r ih => rw [mem_look] at hm; rw [hm.2]; simp
  | eos =>
    simp only [run] at hm
    split at hm
    · simp only [List.mem_singleton] at hm; subst hm; simp
    · cases hm

/-! ### finditer -/

/-- Every match found is what the engine returns first at its position. -/
theorem scan_sound (r : Re) (s : Str) (pos k : Nat) (m : Match) (hm : m ∈ scan r s pos k) :
    pos ≤ m.start ∧ m.start - pos ≤ s.length ∧
      ∃ h t, run r (s.drop (m.start - pos)) = h :: t ∧ m.text = h.1 ∧ m.caps = h.2.2 := by
  induction s generalizing pos k with
  | nil =>
    cases k with
    | succ k => simp [scan] at hm
    | zero =>
      simp only [scan] at hm
      split at hm
      · cases hm
      · rename_i h t hr
        simp only [List.mem_singleton] at hm
        subst hm
        exact ⟨Nat.le_refl _, by simp, h, t, by simp [hr], rfl, rfl⟩
  | cons c cs ih =>
    have shift : ∀ k', m ∈ scan r cs (pos + 1) k' → pos ≤ m.start ∧ m.start - pos ≤ (c :: cs).length ∧
        ∃ h t, run r ((c :: cs).drop (m.start - pos)) = h :: t ∧ m.text = h.1 ∧ m.caps = h.2.2 := by
      intro k' hm
      obtain ⟨h1, h2, h, t, h3, h4⟩ := ih _ _ hm
      refine ⟨by omega, by simp; omega, h, t, ?_, h4⟩
      have : m.start - pos = (m.start - (pos + 1)) + 1 := by omega
      rw [this, List.drop_succ_cons]; exact h3
    cases k with
    | succ k => simp only [scan] at hm; exact shift _ hm
    | zero =>
      simp only [scan] at hm
      split at hm
      · exact shift _ hm
      · rename_i h t hr
        rcases List.mem_cons.1 hm with rfl | hm
        · exact ⟨Nat.le_refl _, by simp, h, t, by simp [hr], rfl, rfl⟩
        · exact shift _ hm

theorem finditer_sound (r : Re) (s : Str) (m : Match) (hm : m ∈ finditer r s) :
    m.start ≤ s.length ∧ ∃ h t, run r (s.drop m.start) = h :: t ∧ m.text = h.1 ∧ m.caps = h.2.2 := by
  have := scan_sound r s 0 0 m hm
  simpa using this

/-- The text of a match is the piece of the input at its position. -/
theorem finditer_text (r : Re) (s : Str) (m : Match) (hm : m ∈ finditer r s) : m.text <+: s.drop m.start := by
  obtain ⟨_, h, t, hr, e, _⟩ := finditer_sound r s m hm
  have := run_split r _ h (by rw [hr]; simp)
  rw [e]; exact ⟨_, this⟩

theorem finditer_caps (r : Re) (s : Str) (m : Match) (hm : m ∈ finditer r s) : ∀ c ∈ m.caps, c.2 <:+: s := by
  obtain ⟨_, h, t, hr, e1, e2⟩ := finditer_sound r s m hm
  intro c hc
  rw [e2] at hc
  have h1 := caps_infix r _ h (by rw [hr]; simp) c hc
  rw [← e1] at h1
  exact h1.trans ((finditer_text r s m hm).isInfix.trans (List.drop_suffix _ _).isInfix)

/-- Matches come in ascending order of position and do not overlap. -/
theorem scan_ge (r : Re) (s : Str) (pos k : Nat) (m : Match) (hm : m ∈ scan r s pos k) : pos + k ≤ m.start := by
  induction s generalizing pos k with
  | nil =>
    cases k with
    | succ k => simp [scan] at hm
    | zero =>
      simp only [scan] at hm
      split at hm
      · cases hm
      · simp only [List.mem_singleton] at hm; subst hm; exact Nat.le_refl _
  | cons c cs ih =>
    cases k with
    | succ k => simp only [scan] at hm; have := ih _ _ hm; omega
    | zero =>
      simp only [scan] at hm
      split at hm
      · have := ih _ _ hm; omega
      · rcases List.mem_cons.1 hm with rfl | hm
        · exact Nat.le_refl _
        · have := ih _ _ hm; omega

theorem scan_ascending (r : Re) (s : Str) (pos k : Nat) :
    (scan r s pos k).Pairwise (fun a b => a.start < b.start ∧ a.stop ≤ b.start) := by
  induction s generalizing pos k with
  | nil =>
    cases k with
    | succ k => simp [scan]
    | zero => simp only [scan]; split <;> simp
  | cons c cs ih =>
    cases k with
    | succ k => simp only [scan]; exact ih _ _
    | zero =>
      simp only [scan]
      split
      · exact ih _ _
      · rename_i h t hr
        refine List.pairwise_cons.2 ⟨fun m hm => ?_, ih _ _⟩
        have := scan_ge _ _ _ _ _ hm
        simp only [Match.stop]
        omega

/-- A position is found if no match before it covers it. -/
theorem scan_complete (r : Re) (s : Str) (pos k i : Nat) (hi : i ≤ s.length) (hk : k ≤ i)
    (h : Hit) (t : List Hit) (hr : run r (s.drop i) = h :: t)
    (hcov : ∀ m ∈ scan r s pos k, m.start < pos + i → m.stop ≤ pos + i) :
    ∃ m ∈ scan r s pos k, m.start = pos + i ∧ m.text = h.1 ∧ m.caps = h.2.2 := by
  induction s generalizing pos k i with
  | nil =>
    have : i = 0 := by simpa using hi
    subst this
    have : k = 0 := by omega
    subst this
    simp only [List.drop_nil] at hr
    exact ⟨⟨pos, h.1, h.2.2⟩, by simp [scan, hr], rfl, rfl, rfl⟩
  | cons c cs ih =>
    have recur : ∀ k', k' ≤ i - 1 → 0 < i → (∀ m ∈ scan r cs (pos + 1) k', m.start < pos + i → m.stop ≤ pos + i) →
        ∃ m ∈ scan r cs (pos + 1) k', m.start = pos + i ∧ m.text = h.1 ∧ m.caps = h.2.2 := by
      intro k' hk' hpos hc
      obtain ⟨m, m1, m2, m3⟩ := ih (pos + 1) k' (i - 1) (by simp at hi; omega) hk'
        (by have e : i = (i - 1) + 1 := by omega
            rw [e, List.drop_succ_cons] at hr; exact hr)
        (fun m hm hlt => by have := hc m hm (by omega); omega)
      exact ⟨m, m1, by omega, m3⟩
    cases k with
    | succ k =>
      simp only [scan] at hcov ⊢
      exact recur k (by omega) (by omega) hcov
    | zero =>
      by_cases h0 : i = 0
      · subst h0
        simp only [List.drop_zero] at hr
        refine ⟨⟨pos, h.1, h.2.2⟩, ?_, rfl, rfl, rfl⟩
        simp only [scan, hr, List.mem_cons, true_or]
      · simp only [scan] at hcov ⊢
        cases hr0 : run r (c :: cs) with
        | nil =>
          rw [hr0] at hcov
          simp only at hcov ⊢
          exact recur 0 (by omega) (by omega) hcov
        | cons h' t' =>
          rw [hr0] at hcov
          simp only at hcov ⊢
          have h1 := hcov ⟨pos, h'.1, h'.2.2⟩ (by simp) (by simp only; omega)
          simp only [Match.stop] at h1
          obtain ⟨m, m1, m2⟩ := recur (h'.1.length - 1) (by omega) (by omega)
            (fun m hm => hcov m (by simp [hm]))
          exact ⟨m, by simp [m1], m2⟩

end Re
end Py
