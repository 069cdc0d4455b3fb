import Verif.Proofs.Save2
/-! # What a save at one path does to other paths: present and absent places -/

namespace TTP
open Py Spec

theorem fresh_absent (ti : Bool) (path : List PItem) (q : List Key) (h : Diverge q (pkeys ti path)) :
    Absent q (.dict (freshDict ti path)) := by
  induction path generalizing q with
  | nil => exact absurd List.nil_prefix h.2
  | cons p ps ih =>
    obtain ⟨w, hw, h1, h2⟩ := freshDict_cons ti p ps
    rw [hw]
    cases q with
    | nil => exact absurd h (not_diverge_nil_left _)
    | cons k q =>
      by_cases e : keyOf ti p.name = k
      · subst e
        have h3 : Diverge q (pkeys ti ps) := diverge_cons_same (by simpa [pkeys] using h)
        refine Absent.key (w := w) (by simp [Dict.get?_cons]) ?_
        cases ps with
        | nil => exact absurd List.nil_prefix h3.2
        | cons b bs =>
          rcases h1 b bs rfl with e | e
          · rw [e]; exact ih q h3
          · rw [e]
            cases q with
            | nil => exact absurd h3 (not_diverge_nil_left _)
            | cons k q => exact Absent.last (by simp) (ih _ h3)
      · exact Absent.missing (by simp [Dict.get?_cons, e])

theorem modAt_keep {α : Type} (ti : Bool) (f : Val → PyM (Val × α)) (path : List PItem) (hnn : NN path)
    (R R' : Val) (a : Option α) (h : modAt ti f path R = .ok (R', a)) (q : List Key) (hd : Diverge q (pkeys ti path)) :
    (Absent q R → Absent q R') ∧ (∀ x, At q R x → At q R' x) := by
  induction path generalizing R R' q with
  | nil => exact absurd List.nil_prefix hd.2
  | cons p ps ih =>
    obtain ⟨hp, hps⟩ := NN_cons hnn
    cases q with
    | nil => exact absurd hd (not_diverge_nil_left _)
    | cons k q =>
    -- in a dictionary
    have dictCase : ∀ d R', modAt ti f (p :: ps) (.dict d) = .ok (R', a) →
        (∃ d', R' = .dict d') ∧ (Absent (k :: q) (.dict d) → Absent (k :: q) R') ∧
        (∀ x, At (k :: q) (.dict d) x → At (k :: q) R' x) := by
      intro d R' h
      rw [modAt_cons ti f p ps hp, onLast] at h
      cases hg : Dict.get? d (keyOf ti p.name) with
      | some w =>
        rw [enterKey_of_get _ _ _ _ w hg] at h
        simp only [bind_ok_iff, pure_ok, Except.ok.injEq, Prod.mk.injEq] at h
        obtain ⟨r, h1, h2, h3⟩ := h
        subst h2
        refine ⟨⟨_, rfl⟩, ?_, ?_⟩
        · intro hab
          by_cases e : keyOf ti p.name = k
          · subst e
            cases hab with
            | missing hm => rw [hm] at hg; cases hg
            | key hk hw =>
              rw [hk] at hg; cases hg
              exact Absent.key (Dict.get?_set_self _ _ _)
                ((ih hps _ _ (by rw [h1, ← h3]) q (diverge_cons_same (by simpa [pkeys] using hd))).1 hw)
          · cases hab with
            | missing hm => exact Absent.missing (by rw [Dict.get?_set_ne _ _ e]; exact hm)
            | key hk hw => exact Absent.key (by rw [Dict.get?_set_ne _ _ e]; exact hk) hw
        · intro x hat
          cases hat with
          | key hk hw =>
            by_cases e : keyOf ti p.name = k
            · subst e
              rw [hk] at hg; cases hg
              exact At.key (Dict.get?_set_self _ _ _)
                ((ih hps _ _ (by rw [h1, ← h3]) q (diverge_cons_same (by simpa [pkeys] using hd))).2 x hw)
            · exact At.key (by rw [Dict.get?_set_ne _ _ e]; exact hk) hw
      | none =>
        obtain ⟨w, hw, h1, h2⟩ := freshDict_cons ti p ps
        rw [hw, enterKey_of_missing _ _ _ _ hg] at h
        simp only [bind_ok_iff, pure_ok, Except.ok.injEq, Prod.mk.injEq] at h
        obtain ⟨r, h3, h4, h5⟩ := h
        subst h4
        refine ⟨⟨_, rfl⟩, ?_, ?_⟩
        · intro hab
          by_cases e : keyOf ti p.name = k
          · subst e
            have hd2 := diverge_cons_same (by simpa [pkeys] using hd : Diverge (keyOf ti p.name :: q) (keyOf ti p.name :: pkeys ti ps))
            refine Absent.key (w := r.1) (by rw [Dict.get?_append, hg]; simp [Dict.get?_cons]) ?_
            refine (ih hps _ _ (by rw [h3, ← h5]) q hd2).1 ?_
            cases ps with
            | nil => exact absurd List.nil_prefix hd2.2
            | cons b bs =>
              rcases h1 b bs rfl with e | e
              · rw [e]; exact fresh_absent ti _ q hd2
              · rw [e]
                cases q with
                | nil => exact absurd hd2 (not_diverge_nil_left _)
                | cons k q => exact Absent.last (by simp) (fresh_absent ti _ _ hd2)
          · cases hab with
            | missing hm => exact Absent.missing (by rw [Dict.get?_append, hm]; simp [Dict.get?_cons, e])
            | key hk hw => exact Absent.key (by rw [Dict.get?_append, hk]; rfl) hw
        · intro x hat
          cases hat with
          | key hk hw => exact At.key (by rw [Dict.get?_append, hk]; rfl) hw
    constructor
    · intro hab
      cases hab with
      | missing hm => exact (dictCase _ _ h).2.1 (Absent.missing hm)
      | key hk hw => exact (dictCase _ _ h).2.1 (Absent.key hk hw)
      | empty =>
        rw [modAt_cons ti f p ps hp, onLast_list_nil] at h
        simp only [bind_ok_iff, pure_ok, Except.ok.injEq, Prod.mk.injEq] at h
        obtain ⟨r, h1, h2, h3⟩ := h
        subst h2
        have h4 : modAt ti f (p :: ps) (.dict (freshDict ti (p :: ps))) = .ok (r.1, a) := by
          rw [modAt_cons ti f p ps hp, onLast, h1, ← h3]
        obtain ⟨⟨d', hd'⟩, h5, _⟩ := dictCase _ _ h4
        rw [hd'] at h5 ⊢
        exact Absent.last (by simp) (h5 (fresh_absent ti _ _ hd))
      | last hl hw =>
        rw [getLast?_eq_some_split hl, modAt_cons ti f p ps hp, onLast_list_append] at h
        simp only [bind_ok_iff, pure_ok, Except.ok.injEq, Prod.mk.injEq] at h
        obtain ⟨r, h1, h2, h3⟩ := h
        subst h2
        have h4 := h1
        rw [← modAt_cons ti f p ps hp] at h4
        obtain ⟨⟨d', hd'⟩, h5, _⟩ := dictCase _ r.1 (by rw [h4, ← h3])
        rw [hd'] at h5 ⊢
        exact Absent.last (by simp) (h5 hw)
    · intro x hat
      cases hat with
      | key hk hw => exact (dictCase _ _ h).2.2 x (At.key hk hw)
      | last hl hw =>
        rw [getLast?_eq_some_split hl, modAt_cons ti f p ps hp, onLast_list_append] at h
        simp only [bind_ok_iff, pure_ok, Except.ok.injEq, Prod.mk.injEq] at h
        obtain ⟨r, h1, h2, h3⟩ := h
        subst h2
        have h4 := h1
        rw [← modAt_cons ti f p ps hp] at h4
        obtain ⟨⟨d', hd'⟩, _, h5⟩ := dictCase _ r.1 (by rw [h4, ← h3])
        rw [hd'] at h5 ⊢
        exact At.last (by simp) (h5 x hw)

/-- A save at an absent place keeps what is present and absent at diverging places. -/
theorem save_keep (ti m : Bool) (data : Val) (path : List PItem) (hnn : NN path) (R R' x' : Val)
    (hab : Absent (pkeys ti path) R) (hf : saveElem m (isDStar path) data (leaf path) = .ok (x', false))
    (h : save ti m data path R = .ok R') (q : List Key) (hd : Diverge q (pkeys ti path)) :
    (Absent q R → Absent q R') ∧ (∀ x, At q R x → At q R' x) := by
  obtain ⟨R1, h1, h2⟩ := modAt_Absent ti _ path hnn R hab x' false hf
  have h3 : save ti m data path R = .ok R1 := by simp [save, h1]
  rw [h3] at h
  cases h
  exact modAt_keep ti _ path hnn R R' _ h1 q hd

end TTP
