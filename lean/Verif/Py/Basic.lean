/-!
# Python values used by the model

Strings are lists of code points, dictionaries are association lists in insertion order (CPython >= 3.7),
exceptions are values of `Err`.
-/

namespace Py

/-- Python `str`: list of code points. -/
abbrev Str := List Char

open Lean in
/-- `c!"abc"` is the list of characters `['a','b','c']` -/
macro:max "c!" s:str : term => do
  let cs := s.getString.toList
  let elems : Array (TSyntax `term) := cs.toArray.map fun c => ⟨Syntax.mkCharLit c⟩
  `(([$elems,*] : List Char))

/-- Exceptions that the modelled code can raise. -/
inductive Err where
  | keyError | typeError | attributeError | indexError | valueError
  | reError | systemExit | unboundLocal | runtimeError | fileNotFound | parseError | unicodeError
  deriving DecidableEq, Repr

/-- Result of a Python call: a value or an exception. -/
abbrev PyM (α : Type) := Except Err α

instance {α : Type} [DecidableEq α] : DecidableEq (PyM α) := fun a b =>
  match a, b with
  | .ok x, .ok y => if h : x = y then isTrue (h ▸ rfl) else isFalse (fun e => h (by injection e))
  | .error x, .error y => if h : x = y then isTrue (h ▸ rfl) else isFalse (fun e => h (by injection e))
  | .ok _, .error _ => isFalse (fun e => by cases e)
  | .error _, .ok _ => isFalse (fun e => by cases e)

/-! ## Dictionaries -/

/-- Python dict: association list in insertion order. -/
abbrev Dict (K V : Type) := List (K × V)

namespace Dict

variable {K V : Type} [DecidableEq K]

/-- `d.get(k)` -/
def get? : Dict K V → K → Option V
  | [], _ => none
  | (k', v) :: d, k => if k' = k then some v else get? d k

/-- `k in d` -/
def has (d : Dict K V) (k : K) : Bool := (get? d k).isSome

/-- `d[k] = v`: an existing key keeps its place, a new key goes to the end. -/
def set : Dict K V → K → V → Dict K V
  | [], k, v => [(k, v)]
  | (k', v') :: d, k, v => if k' = k then (k', v) :: d else (k', v') :: set d k v

/-- `del d[k]` (no effect if absent) -/
def erase : Dict K V → K → Dict K V
  | [], _ => []
  | (k', v') :: d, k => if k' = k then d else (k', v') :: erase d k

/-- `d.update(e)` -/
def update (d e : Dict K V) : Dict K V := e.foldl (fun acc kv => set acc kv.1 kv.2) d

/-- `d.setdefault(k, v)` seen as the new dictionary -/
def setdefault (d : Dict K V) (k : K) (v : V) : Dict K V := if has d k then d else set d k v

/-- `list(d.keys())` -/
def keys (d : Dict K V) : List K := d.map Prod.fst

/-- Every Python dict has distinct keys. -/
def WF (d : Dict K V) : Prop := (keys d).Nodup

@[simp] theorem get?_nil (k : K) : get? ([] : Dict K V) k = none := rfl

theorem get?_cons (k' : K) (v : V) (d : Dict K V) (k : K) :
    get? ((k', v) :: d) k = if k' = k then some v else get? d k := rfl

theorem get?_eq_none_iff (d : Dict K V) (k : K) : get? d k = none ↔ k ∉ keys d := by
  induction d with
  | nil => simp [keys]
  | cons a d ih =>
    obtain ⟨k', v'⟩ := a
    simp only [get?_cons, keys, List.map_cons, List.mem_cons, not_or]
    split
    · rename_i h; simp [h]
    · rename_i h
      rw [ih]; simp only [keys]
      constructor
      · intro h2; exact ⟨fun e => h e.symm, h2⟩
      · intro h2; exact h2.2

theorem has_iff (d : Dict K V) (k : K) : has d k = true ↔ k ∈ keys d := by
  unfold has
  rw [Option.isSome_iff_ne_none, ne_eq, get?_eq_none_iff]; simp

theorem has_eq_false_iff (d : Dict K V) (k : K) : has d k = false ↔ k ∉ keys d := by
  rw [← has_iff]; simp

theorem get?_set (d : Dict K V) (k : K) (v : V) (q : K) :
    get? (set d k v) q = if k = q then some v else get? d q := by
  induction d with
  | nil => simp [set, get?_cons]
  | cons a d ih =>
    obtain ⟨k', v'⟩ := a
    simp only [set]
    by_cases h : k' = k
    · subst h; simp only [if_true, get?_cons]; split <;> rfl
    · simp only [h, if_false, get?_cons, ih]
      by_cases h2 : k' = q
      · subst h2; simp [Ne.symm h]
      · simp [h2]

theorem get?_set_self (d : Dict K V) (k : K) (v : V) : get? (set d k v) k = some v := by
  simp [get?_set]

theorem get?_set_ne (d : Dict K V) {k q : K} (v : V) (h : k ≠ q) : get? (set d k v) q = get? d q := by
  simp [get?_set, h]

theorem keys_set_of_mem (d : Dict K V) (k : K) (v : V) (h : k ∈ keys d) : keys (set d k v) = keys d := by
  induction d with
  | nil => simp [keys] at h
  | cons a d ih =>
    obtain ⟨k', v'⟩ := a
    simp only [set]
    by_cases h2 : k' = k
    · simp [h2, keys]
    · simp only [keys, List.map_cons, List.mem_cons] at h
      rcases h with h | h
      · exact absurd h.symm h2
      · have := ih h
        simp only [h2, if_false, keys, List.map_cons] at *
        rw [this]

theorem set_of_not_mem (d : Dict K V) (k : K) (v : V) (h : k ∉ keys d) : set d k v = d ++ [(k, v)] := by
  induction d with
  | nil => rfl
  | cons a d ih =>
    obtain ⟨k', v'⟩ := a
    simp only [keys, List.map_cons, List.mem_cons, not_or] at h
    have h2 : ¬ k' = k := fun e => h.1 e.symm
    simp only [set, h2, if_false, List.cons_append]
    rw [ih h.2]

theorem keys_set_of_not_mem (d : Dict K V) (k : K) (v : V) (h : k ∉ keys d) :
    keys (set d k v) = keys d ++ [k] := by
  rw [set_of_not_mem d k v h]; simp [keys]

theorem mem_keys_set (d : Dict K V) (k : K) (v : V) (q : K) :
    q ∈ keys (set d k v) ↔ q = k ∨ q ∈ keys d := by
  by_cases h : k ∈ keys d
  · rw [keys_set_of_mem d k v h]
    constructor
    · intro h2; exact Or.inr h2
    · rintro (h2 | h2)
      · exact h2 ▸ h
      · exact h2
  · rw [keys_set_of_not_mem d k v h]; simp only [List.mem_append, List.mem_singleton]; exact or_comm

theorem WF_set (d : Dict K V) (k : K) (v : V) (h : WF d) : WF (set d k v) := by
  unfold WF at *
  by_cases h2 : k ∈ keys d
  · rw [keys_set_of_mem d k v h2]; exact h
  · rw [keys_set_of_not_mem d k v h2]
    rw [List.nodup_append]
    refine ⟨h, by simp, ?_⟩
    intro a ha b hb
    simp only [List.mem_singleton] at hb
    subst hb; intro e; exact h2 (e ▸ ha)

/-- setting a key to the value it has changes nothing -/
theorem set_get?_self (d : Dict K V) (k : K) (v : V) (h : get? d k = some v) : set d k v = d := by
  induction d with
  | nil => simp at h
  | cons a d ih =>
    obtain ⟨k', v'⟩ := a
    rw [get?_cons] at h
    simp only [set]
    by_cases h2 : k' = k
    · simp only [h2, if_true] at h ⊢; injection h with h; rw [h]
    · simp only [h2, if_false] at h ⊢; rw [ih h]

theorem set_set (d : Dict K V) (k : K) (v w : V) : set (set d k v) k w = set d k w := by
  induction d with
  | nil => simp [set]
  | cons a d ih =>
    obtain ⟨k', v'⟩ := a
    simp only [set]
    by_cases h2 : k' = k
    · simp [h2, set]
    · simp only [h2, if_false, set, ih]

@[simp] theorem update_nil (d : Dict K V) : update d [] = d := rfl

theorem update_cons (d : Dict K V) (k : K) (v : V) (e : Dict K V) :
    update d ((k, v) :: e) = update (set d k v) e := rfl

theorem update_append (d e f : Dict K V) : update d (e ++ f) = update (update d e) f := by
  simp [update, List.foldl_append]

theorem WF_update (d e : Dict K V) (h : WF d) : WF (update d e) := by
  induction e generalizing d with
  | nil => exact h
  | cons a e ih => obtain ⟨k, v⟩ := a; rw [update_cons]; exact ih _ (WF_set _ _ _ h)

omit [DecidableEq K] in
theorem WF_cons (k : K) (v : V) (d : Dict K V) : WF ((k, v) :: d) ↔ k ∉ keys d ∧ WF d := by
  simp [WF, keys, List.nodup_cons]

theorem mem_keys_update (d e : Dict K V) (q : K) :
    q ∈ keys (update d e) ↔ q ∈ keys d ∨ q ∈ keys e := by
  induction e generalizing d with
  | nil => simp [keys]
  | cons a e ih =>
    obtain ⟨k, v⟩ := a
    rw [update_cons, ih, mem_keys_set]
    simp only [keys, List.map_cons, List.mem_cons]
    constructor
    · rintro ((h | h) | h)
      · exact Or.inr (Or.inl h)
      · exact Or.inl h
      · exact Or.inr (Or.inr h)
    · rintro (h | h | h)
      · exact Or.inl (Or.inr h)
      · exact Or.inl (Or.inl h)
      · exact Or.inr h

/-- value after `d.update(e)`: the value of `e` if present, else the value of `d` -/
theorem get?_update (d e : Dict K V) (he : WF e) (q : K) :
    get? (update d e) q = (get? e q).or (get? d q) := by
  induction e generalizing d with
  | nil => simp
  | cons a e ih =>
    obtain ⟨k, v⟩ := a
    rw [WF_cons] at he
    rw [update_cons, ih _ he.2, get?_cons, get?_set]
    by_cases h : k = q
    · subst h
      have : get? e k = none := (get?_eq_none_iff e k).2 he.1
      simp [this]
    · simp [h]

theorem get?_setdefault (d : Dict K V) (k : K) (v : V) (q : K) :
    get? (setdefault d k v) q = (get? d q).or (if k = q then some v else none) := by
  unfold setdefault
  split
  · rename_i h
    by_cases h2 : k = q
    · subst h2
      unfold has at h
      cases h3 : get? d k with
      | none => simp [h3] at h
      | some w => simp
    · simp [h2]
  · rename_i h
    rw [get?_set]
    by_cases h2 : k = q
    · subst h2
      unfold has at h
      cases h3 : get? d k with
      | none => simp
      | some w => simp [h3] at h
    · simp [h2]

theorem WF_setdefault (d : Dict K V) (k : K) (v : V) (h : WF d) : WF (setdefault d k v) := by
  unfold setdefault; split
  · exact h
  · exact WF_set _ _ _ h

theorem mem_keys_erase (d : Dict K V) (k q : K) (h : q ∈ keys (erase d k)) : q ∈ keys d := by
  induction d with
  | nil => exact h
  | cons a d ih =>
    obtain ⟨k', v'⟩ := a
    simp only [erase] at h
    by_cases h2 : k' = k
    · simp only [h2, if_true] at h
      simp only [keys, List.map_cons, List.mem_cons]
      exact Or.inr h
    · simp only [h2, if_false] at h
      simp only [keys, List.map_cons, List.mem_cons] at h ⊢
      rcases h with h | h
      · exact Or.inl h
      · exact Or.inr (ih h)

theorem WF_erase (d : Dict K V) (k : K) (h : WF d) : WF (erase d k) := by
  induction d with
  | nil => exact h
  | cons a d ih =>
    obtain ⟨k', v'⟩ := a
    rw [WF_cons] at h
    simp only [erase]
    split
    · exact h.2
    · rw [WF_cons]
      exact ⟨fun h2 => h.1 (mem_keys_erase d k k' h2), ih h.2⟩

theorem get?_erase (d : Dict K V) (k : K) (h : WF d) (q : K) :
    get? (erase d k) q = if k = q then none else get? d q := by
  induction d with
  | nil => simp [erase]
  | cons a d ih =>
    obtain ⟨k', v'⟩ := a
    rw [WF_cons] at h
    simp only [erase]
    by_cases h2 : k' = k
    · subst h2
      simp only [if_true, get?_cons]
      by_cases h3 : k' = q
      · subst h3; simp only [if_true]; exact (get?_eq_none_iff d k').2 h.1
      · simp [h3]
    · simp only [h2, if_false, get?_cons, ih h.2]
      by_cases h3 : k' = q
      · subst h3; simp [Ne.symm h2]
      · simp [h3]

theorem erase_of_not_mem (d : Dict K V) (k : K) (h : k ∉ keys d) : erase d k = d := by
  induction d with
  | nil => rfl
  | cons a d ih =>
    obtain ⟨k', v'⟩ := a
    simp only [keys, List.map_cons, List.mem_cons, not_or] at h
    have h2 : ¬ k' = k := fun e => h.1 e.symm
    simp only [erase, h2, if_false]
    rw [ih h.2]

theorem get?_append (d e : Dict K V) (q : K) : get? (d ++ e) q = (get? d q).or (get? e q) := by
  induction d with
  | nil => simp
  | cons a d ih =>
    obtain ⟨k', v'⟩ := a
    simp only [List.cons_append, get?_cons, ih]
    split <;> simp

theorem mem_of_get? (d : Dict K V) (k : K) (v : V) (h : get? d k = some v) : (k, v) ∈ d := by
  induction d with
  | nil => simp at h
  | cons a d ih =>
    obtain ⟨k', v'⟩ := a
    rw [get?_cons] at h
    by_cases h2 : k' = k
    · simp only [h2, if_true, Option.some.injEq] at h; simp [h2, h]
    · simp only [h2, if_false] at h; exact List.mem_cons_of_mem _ (ih h)

theorem get?_of_mem (d : Dict K V) (k : K) (v : V) (hw : WF d) (h : (k, v) ∈ d) : get? d k = some v := by
  induction d with
  | nil => simp at h
  | cons a d ih =>
    obtain ⟨k', v'⟩ := a
    rw [WF_cons] at hw
    rw [get?_cons]
    simp only [List.mem_cons, Prod.mk.injEq] at h
    rcases h with ⟨h1, h2⟩ | h
    · simp [h1, h2]
    · have : k' ≠ k := by
        intro e; subst e
        exact hw.1 (List.mem_map.2 ⟨(k', v), h, rfl⟩)
      simp [this, ih hw.2 h]

/-- updating with new keys only appends them -/
theorem update_of_disjoint (d e : Dict K V) (he : WF e) (hd : ∀ k ∈ keys e, k ∉ keys d) : update d e = d ++ e := by
  induction e generalizing d with
  | nil => simp
  | cons a e ih =>
    obtain ⟨k, v⟩ := a
    rw [WF_cons] at he
    have hk : k ∉ keys d := hd k (by simp [keys])
    rw [update_cons, set_of_not_mem d k v hk, ih _ he.2]
    · simp
    · intro q hq
      simp only [keys, List.map_append, List.map_cons, List.map_nil, List.mem_append, List.mem_singleton, not_or]
      refine ⟨hd q (by simp only [keys, List.map_cons, List.mem_cons] at hq ⊢; exact Or.inr hq), ?_⟩
      intro e2; subst e2; exact he.1 hq

theorem update_nil_left (e : Dict K V) (he : WF e) : update [] e = e := by
  rw [update_of_disjoint [] e he (by simp [keys])]; rfl

end Dict

/-! ## Values -/

/-- Dictionary keys: strings, and integers for `dynamic_path_key_to_int`. -/
inductive Key where
  | s (x : Str)
  | i (n : Int)
  deriving DecidableEq, Repr

/-- Python values that occur in results, defaults, variables and lookups. -/
inductive Val where
  | none
  | bool (b : Bool)
  | int (n : Int)
  | flt (tok : Str)
  | str (s : Str)
  | list (xs : List Val)
  | dict (kvs : List (Key × Val))
  deriving Repr

namespace Val

mutual
/-- structural equality test -/
def beq : Val → Val → Bool
  | .none, .none => true
  | .bool a, .bool b => decide (a = b)
  | .int a, .int b => decide (a = b)
  | .flt a, .flt b => decide (a = b)
  | .str a, .str b => decide (a = b)
  | .list a, .list b => beqL a b
  | .dict a, .dict b => beqD a b
  | _, _ => false
def beqL : List Val → List Val → Bool
  | [], [] => true
  | a :: as, b :: bs => beq a b && beqL as bs
  | _, _ => false
def beqD : List (Key × Val) → List (Key × Val) → Bool
  | [], [] => true
  | (k, a) :: as, (q, b) :: bs => decide (k = q) && beq a b && beqD as bs
  | _, _ => false
end

mutual
theorem beq_iff : ∀ a b : Val, beq a b = true ↔ a = b
  | .none, b => by cases b <;> simp [beq]
  | .bool _, b => by cases b <;> simp [beq]
  | .int _, b => by cases b <;> simp [beq]
  | .flt _, b => by cases b <;> simp [beq]
  | .str _, b => by cases b <;> simp [beq]
  | .list a, b => by cases b <;> simp [beq, beqL_iff a]
  | .dict a, b => by cases b <;> simp [beq, beqD_iff a]
theorem beqL_iff : ∀ a b : List Val, beqL a b = true ↔ a = b
  | [], b => by cases b <;> simp [beqL]
  | a :: as, b => by cases b <;> simp [beqL, beq_iff a, beqL_iff as]
theorem beqD_iff : ∀ a b : List (Key × Val), beqD a b = true ↔ a = b
  | [], b => by cases b <;> simp [beqD]
  | (k, a) :: as, b => by
    cases b with
    | nil => simp [beqD]
    | cons x xs =>
      obtain ⟨q, v⟩ := x
      simp [beqD, beq_iff a, beqD_iff as]
end

instance : DecidableEq Val := fun a b => decidable_of_iff _ (beq_iff a b)

/-- Python truthiness `bool(v)` (a float token counts as true; simplification) -/
def truthy : Val → Bool
  | .none => false
  | .bool b => b
  | .int n => decide (n ≠ 0)
  | .flt _ => true
  | .str s => !s.isEmpty
  | .list xs => !xs.isEmpty
  | .dict kvs => !kvs.isEmpty

end Val

end Py
