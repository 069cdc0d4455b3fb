import Verif.Spec.Equal
import Verif.Model.Match
import Verif.Proofs.Save2
/-!
# Equality of values
-/

namespace TTP
open Py Spec
open TTP.MatchFn (pyEq pyEqL pyEqD)

theorem pyEqL_iff (a b : List Val) :
    pyEqL a b = true ↔ a.length = b.length ∧ ∀ (i : Nat) (x y : Val), a[i]? = some x → b[i]? = some y → pyEq x y = true := by
  induction a generalizing b with
  | nil => cases b <;> simp [pyEqL]
  | cons x a ih =>
    cases b with
    | nil => simp [pyEqL]
    | cons y b =>
      simp only [pyEqL, Bool.and_eq_true, ih, List.length_cons, Nat.add_right_cancel_iff]
      constructor
      · rintro ⟨h1, h2, h3⟩
        refine ⟨h2, ?_⟩
        intro i u v hu hv
        cases i with
        | zero => simp only [List.getElem?_cons_zero, Option.some.injEq] at hu hv; subst hu hv; exact h1
        | succ i => exact h3 i u v (by simpa using hu) (by simpa using hv)
      · rintro ⟨h1, h2⟩
        exact ⟨h2 0 x y rfl rfl, h1, fun i u v hu hv => h2 (i + 1) u v (by simpa using hu) (by simpa using hv)⟩

theorem pyEqD_iff (a b : Dict Key Val) (h : (a.map Prod.fst).Nodup) :
    pyEqD a b = true ↔ ∀ k x, Dict.get? a k = some x → ∃ y, Dict.get? b k = some y ∧ pyEq x y = true := by
  induction a with
  | nil => simp [pyEqD, Dict.get?]
  | cons p a ih =>
    obtain ⟨k, x⟩ := p
    simp only [List.map_cons, List.nodup_cons] at h
    simp only [pyEqD, Bool.and_eq_true, ih h.2]
    constructor
    · rintro ⟨h1, h2⟩ k' x' hx
      rw [Dict.get?_cons] at hx
      split at hx
      · rename_i e; cases e; cases hx
        cases hb : Dict.get? b k with
        | none => rw [hb] at h1; cases h1
        | some y => rw [hb] at h1; exact ⟨y, rfl, h1⟩
      · exact h2 k' x' hx
    · intro hall
      constructor
      · obtain ⟨y, hy, he⟩ := hall k x (by rw [Dict.get?_cons, if_pos rfl])
        rw [hy]; exact he
      · intro k' x' hx
        refine hall k' x' ?_
        rw [Dict.get?_cons, if_neg]
        · exact hx
        · intro e
          subst e
          exact h.1 ((Dict.has_iff a k).1 (by rw [Dict.has, hx]; rfl))

theorem get_some_iff_mem {d : Dict Key Val} {k : Key} : (∃ x, Dict.get? d k = some x) ↔ k ∈ d.map Prod.fst := by
  rw [← Option.isSome_iff_exists]; exact Dict.has_iff d k

theorem DeepWFL_get {xs : List Val} {i : Nat} {x : Val} (h : DeepWFL xs) (hx : xs[i]? = some x) : DeepWF x := by
  induction xs generalizing i with
  | nil => simp at hx
  | cons y xs ih =>
    rw [DeepWFL] at h
    cases i with
    | zero => simp only [List.getElem?_cons_zero, Option.some.injEq] at hx; subst hx; exact h.1
    | succ i => exact ih h.2 (by simpa using hx)

theorem length_le_of_incl {a b : List Key} (ha : a.Nodup) (h : ∀ k ∈ a, k ∈ b) : a.length ≤ b.length := by
  induction a generalizing b with
  | nil => simp
  | cons x a ih =>
    rw [List.nodup_cons] at ha
    have := ih (b := b.erase x) ha.2 (by
      intro k hk
      have : k ≠ x := fun e => ha.1 (e ▸ hk)
      exact (List.mem_erase_of_ne this).2 (h k (by simp [hk])))
    have hx := h x (by simp)
    rw [List.length_erase_of_mem hx] at this
    have := List.length_pos_of_mem hx
    simp only [List.length_cons]; omega

/-- same keys, from the number of keys and inclusion -/
theorem keys_same {a b : List Key} (ha : a.Nodup) (hl : a.length = b.length) (h : ∀ k ∈ a, k ∈ b) : ∀ k ∈ b, k ∈ a := by
  intro k hk
  apply Classical.byContradiction
  intro hn
  have : a.length ≤ (b.erase k).length := by
    have hs : ∀ x ∈ a, x ∈ b.erase k := by
      intro x hx
      have : x ≠ k := fun e => hn (e ▸ hx)
      exact (List.mem_erase_of_ne this).2 (h x hx)
    exact length_le_of_incl ha hs
  rw [List.length_erase_of_mem hk] at this
  have : 0 < b.length := List.length_pos_of_mem hk
  omega

/-- `==` is what the specification says -/
theorem pyEq_sound (a b : Val) (ha : DeepWF a) (hb : DeepWF b) (h : pyEq a b = true) : SameVal a b := by
  match a, b with
  | .none, .none => exact .none
  | .bool x, .bool y => simp only [pyEq, beq_iff_eq] at h; subst h; exact .bool x
  | .bool x, .int n => cases x <;> simp [pyEq] at h <;> subst h <;> constructor
  | .int n, .bool x => cases x <;> simp [pyEq] at h <;> subst h <;> constructor
  | .int x, .int y => simp only [pyEq, beq_iff_eq] at h; subst h; exact .int x
  | .flt x, .flt y => simp only [pyEq, beq_iff_eq] at h; subst h; exact .flt x
  | .str x, .str y => simp only [pyEq, beq_iff_eq] at h; subst h; exact .str x
  | .list xs, .list ys =>
    rw [pyEq, pyEqL_iff] at h
    rw [DeepWF] at ha hb
    refine .list h.1 ?_
    intro i x y hx hy
    have : sizeOf x < sizeOf xs := List.sizeOf_lt_of_mem (List.mem_of_getElem? hx)
    exact pyEq_sound x y (DeepWFL_get ha hx) (DeepWFL_get hb hy) (h.2 i x y hx hy)
  | .dict xs, .dict ys =>
    rw [DeepWF] at ha hb
    rw [pyEq, Bool.and_eq_true, beq_iff_eq, pyEqD_iff xs ys ha.1] at h
    refine .dict ?_ ?_
    · intro k
      constructor
      · rintro ⟨x, hx⟩
        obtain ⟨y, hy, _⟩ := h.2 k x hx
        exact ⟨y, hy⟩
      · intro hy
        rw [get_some_iff_mem] at hy ⊢
        refine keys_same ha.1 (by simpa using h.1) ?_ k hy
        intro k' hk'
        rw [← get_some_iff_mem] at hk' ⊢
        obtain ⟨x, hx⟩ := hk'
        obtain ⟨y, hy, _⟩ := h.2 k' x hx
        exact ⟨y, hy⟩
    · intro k x y hx hy
      obtain ⟨y', hy', he⟩ := h.2 k x hx
      rw [hy] at hy'; cases hy'
      have : sizeOf x < sizeOf xs := by
        have hm := Dict.mem_of_get? _ _ _ hx
        have h1 := List.sizeOf_lt_of_mem hm
        have h2 : sizeOf (k, x) = 1 + sizeOf k + sizeOf x := rfl
        omega
      exact pyEq_sound x y (DeepWFD_get ha.2 hx) (DeepWFD_get hb.2 hy) he
termination_by sizeOf a

theorem pyEq_complete {a b : Val} (h : SameVal a b) (ha : DeepWF a) (hb : DeepWF b) : pyEq a b = true := by
  induction h with
  | none => rfl
  | bool b => simp [pyEq]
  | int n => simp [pyEq]
  | true_one => rfl
  | one_true => rfl
  | false_zero => rfl
  | zero_false => rfl
  | flt t => simp [pyEq]
  | str s => simp [pyEq]
  | list hl _ ih =>
    rw [DeepWF] at ha hb
    rw [pyEq, pyEqL_iff]
    exact ⟨hl, fun i x y hx hy => ih i x y hx hy (DeepWFL_get ha hx) (DeepWFL_get hb hy)⟩
  | @dict xs ys hk _ ih =>
    rw [DeepWF] at ha hb
    rw [pyEq, Bool.and_eq_true, beq_iff_eq, pyEqD_iff xs ys ha.1]
    constructor
    · have h1 : xs.map Prod.fst ⊆ ys.map Prod.fst := fun k h => get_some_iff_mem.1 ((hk k).1 (get_some_iff_mem.2 h))
      have h2 : ys.map Prod.fst ⊆ xs.map Prod.fst := fun k h => get_some_iff_mem.1 ((hk k).2 (get_some_iff_mem.2 h))
      have l1 := length_le_of_incl ha.1 h1
      have l2 := length_le_of_incl hb.1 h2
      simp only [List.length_map] at l1 l2
      omega
    · intro k x hx
      obtain ⟨y, hy⟩ := (hk k).1 ⟨x, hx⟩
      exact ⟨y, hy, ih k x y hx hy (DeepWFD_get ha.2 hx) (DeepWFD_get hb.2 hy)⟩

theorem pyEq_iff (a b : Val) (ha : DeepWF a) (hb : DeepWF b) : pyEq a b = true ↔ SameVal a b :=
  ⟨pyEq_sound a b ha hb, fun h => pyEq_complete h ha hb⟩

end TTP
