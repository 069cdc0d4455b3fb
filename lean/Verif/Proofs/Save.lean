import Verif.Model.Save
import Verif.Spec.Tree
/-! # Lemmas about `modAt`, `valueToList` and `save` -/

namespace TTP
open Py Spec

@[simp] theorem ok_bind {α β : Type} (a : α) (f : α → PyM β) : (Except.ok a >>= f) = f a := rfl
@[simp] theorem err_bind {α β : Type} (e : Err) (f : α → PyM β) : ((Except.error e : PyM α) >>= f) = .error e := rfl
@[simp] theorem pure_ok {α : Type} (a : α) : (pure a : PyM α) = .ok a := rfl
@[simp] theorem throw_err {α : Type} (e : Err) : (throw e : PyM α) = .error e := rfl

theorem bind_ok_iff {α β : Type} (x : PyM α) (f : α → PyM β) (b : β) :
    (x >>= f) = .ok b ↔ ∃ a, x = .ok a ∧ f a = .ok b := by
  cases x with
  | ok a => simp
  | error e => simp

/-! ### list decomposition -/

theorem getLast?_eq_some_split {α : Type} {xs : List α} {x : α} (h : xs.getLast? = some x) :
    xs = xs.dropLast ++ [x] := by
  cases xs with
  | nil => simp at h
  | cons a as =>
    have h2 : (a :: as) ≠ [] := by simp
    rw [List.getLast?_eq_some_getLast h2] at h
    injection h with h
    rw [← h]; exact (List.dropLast_concat_getLast h2).symm

theorem onLastL_append {α : Type} (new : Dict Key Val) (h : Dict Key Val → PyM (Val × Option α))
    (xs : List Val) (y : Val) :
    onLastL new h (xs ++ [y]) = (onLast new h y >>= fun r => pure (xs ++ [r.1], r.2)) := by
  induction xs with
  | nil => simp only [List.nil_append, onLastL]
  | cons x xs ih =>
    cases xs with
    | nil =>
      simp only [List.cons_append, List.nil_append, onLastL]
      cases onLast new h y with
      | error e => rfl
      | ok r => rfl
    | cons z zs =>
      simp only [List.cons_append, onLastL] at ih ⊢
      rw [ih]
      cases onLast new h y with
      | error e => rfl
      | ok r => rfl

theorem onLast_list_append {α : Type} (new : Dict Key Val) (h : Dict Key Val → PyM (Val × Option α))
    (xs : List Val) (y : Val) :
    onLast new h (.list (xs ++ [y])) = (onLast new h y >>= fun r => pure (.list (xs ++ [r.1]), r.2)) := by
  rw [onLast, onLastL_append]
  cases onLast new h y with
  | error e => rfl
  | ok r => rfl

theorem onLast_list_nil {α : Type} (new : Dict Key Val) (h : Dict Key Val → PyM (Val × Option α)) :
    onLast new h (.list []) = (h new >>= fun r => pure (.list [r.1], r.2)) := by
  rw [onLast, onLastL]
  cases h new with
  | error e => rfl
  | ok r => rfl

/-- the path has no null item -/
def NN (path : List PItem) : Prop := ∀ p ∈ path, p.name ≠ nullName

/-- keys of a path -/
def pkeys (toInt : Bool) (path : List PItem) : List Key := path.map (fun p => keyOf toInt p.name)

theorem pathKeys_pkeys (toInt : Bool) (path : List PItem) :
    path.map (fun p => Spec.pathKey toInt p.name) = pkeys toInt path := by
  simp [pkeys, keyOf, Spec.pathKey]

/-- what a new branch ends with -/
def leaf (path : List PItem) : Val :=
  match path.getLast? with
  | some p => if p.stars = 1 then .list [] else .dict []
  | none => .dict []

theorem modAt_cons {α : Type} (ti : Bool) (f : Val → PyM (Val × α)) (p : PItem) (ps : List PItem)
    (h : p.name ≠ nullName) (v : Val) :
    modAt ti f (p :: ps) v = onLast (freshDict ti (p :: ps))
      (fun d => enterKey (keyOf ti p.name) (freshDict ti (p :: ps)) (modAt ti f ps) d) v := by
  cases ps with
  | nil => simp only [modAt, h, if_false]
  | cons q qs => simp only [modAt, h, if_false]

theorem valueToList_cons (r : Val) (p : PItem) (ps : List PItem) (h : p.name ≠ nullName) (v : Val) :
    valueToList r (p :: ps) v = vtlName p.name (valueToList r ps) v := by
  cases ps with
  | nil => simp only [valueToList, h, if_false]
  | cons q qs => simp only [valueToList, h, if_false]

theorem freshDict_cons (ti : Bool) (p : PItem) (ps : List PItem) :
    ∃ w, freshDict ti (p :: ps) = [(keyOf ti p.name, w)] ∧
      (∀ q qs, ps = q :: qs → w = .dict (freshDict ti ps) ∨ w = .list [.dict (freshDict ti ps)]) ∧
      (ps = [] → w = leaf [p]) := by
  by_cases h : p.stars = 1
  · cases ps with
    | nil => exact ⟨.list [], by simp [freshDict, h], by simp, by simp [leaf, h]⟩
    | cons q qs =>
      refine ⟨.list [.dict (freshDict ti (q :: qs))], by rw [freshDict]; simp [h], ?_, by simp⟩
      intro q' qs' _; exact Or.inr rfl
  · refine ⟨.dict (freshDict ti ps), by rw [freshDict.eq_def]; simp [h], ?_, ?_⟩
    · intro q qs _; exact Or.inl rfl
    · intro e; subst e; simp [leaf, h, freshDict]

theorem leaf_cons (p q : PItem) (qs : List PItem) : leaf (p :: q :: qs) = leaf (q :: qs) := by
  simp [leaf, List.getLast?_cons_cons]

theorem At_fresh (ti : Bool) (path : List PItem) (hne : path ≠ []) :
    At (pkeys ti path) (.dict (freshDict ti path)) (leaf path) := by
  induction path with
  | nil => exact absurd rfl hne
  | cons p ps ih =>
    obtain ⟨w, hw, h1, h2⟩ := freshDict_cons ti p ps
    rw [hw]
    refine At.key (w := w) (by simp [Dict.get?_cons]) ?_
    cases ps with
    | nil => rw [h2 rfl]; exact At.here _
    | cons q qs =>
      rw [leaf_cons]
      have := ih (by simp)
      rcases h1 q qs rfl with h | h
      · rw [h]; exact this
      · rw [h]; exact At.last (by simp) this

/-! ### Effect of `modAt` at a reachable element -/

theorem NN_cons {p : PItem} {ps : List PItem} (h : NN (p :: ps)) : p.name ≠ nullName ∧ NN ps :=
  ⟨h p (by simp), fun q hq => h q (by simp [hq])⟩

theorem enterKey_of_get {α : Type} (k : Key) (new : Dict Key Val) (rec : Val → PyM (Val × Option α))
    (d : Dict Key Val) (w : Val) (h : Dict.get? d k = some w) :
    enterKey k new rec d = (rec w >>= fun r => pure (.dict (Dict.set d k r.1), r.2)) := by
  have h2 : Dict.has d k = true := by simp [Dict.has, h]
  simp only [enterKey, h2, if_true, h]

theorem enterKey_of_missing {α : Type} (k : Key) (w : Val) (rec : Val → PyM (Val × Option α))
    (d : Dict Key Val) (h : Dict.get? d k = none) :
    enterKey k [(k, w)] rec d = (rec w >>= fun r => pure (.dict (d ++ [(k, r.1)]), r.2)) := by
  have h2 : Dict.has d k = false := by simp [Dict.has, h]
  have h3 : k ∉ Dict.keys d := (Dict.get?_eq_none_iff d k).1 h
  have h4 : Dict.set d k w = d ++ [(k, w)] := Dict.set_of_not_mem d k w h3
  have h5 : ∀ x, Dict.set (Dict.set d k w) k x = d ++ [(k, x)] := by
    intro x; rw [Dict.set_set]; exact Dict.set_of_not_mem d k x h3
  have h6 : Dict.get? (Dict.update d [(k, w)]) k = some w := by
    simp [Dict.update, Dict.get?_set]
  simp only [enterKey, h2, if_false, Bool.false_eq_true, h6]
  cases rec w with
  | error e => rfl
  | ok r =>
    simp only [ok_bind]
    have : Dict.update d [(k, w)] = Dict.set d k w := rfl
    rw [this, h5]

theorem modAt_At {α : Type} (ti : Bool) (f : Val → PyM (Val × α)) (path : List PItem) (hnn : NN path)
    (R x : Val) (hat : At (pkeys ti path) R x) (x' : Val) (a : α) (hf : f x = .ok (x', a)) :
    ∃ R', modAt ti f path R = .ok (R', some a) ∧ At (pkeys ti path) R' x' ∧ (x' = x → R' = R) := by
  induction path generalizing R with
  | nil =>
    cases hat
    exact ⟨x', by simp [modAt, hf], At.here _, fun h => h⟩
  | cons p ps ih =>
    obtain ⟨hp, hps⟩ := NN_cons hnn
    have key : ∀ d w, Dict.get? d (keyOf ti p.name) = some w → At (pkeys ti ps) w x →
        ∃ R', modAt ti f (p :: ps) (.dict d) = .ok (R', some a) ∧ At (pkeys ti (p :: ps)) R' x' ∧
          (x' = x → R' = .dict d) ∧ ∃ d', R' = .dict d' := by
      intro d w hd hw
      obtain ⟨w', hw1, hw2, hw3⟩ := ih hps w hw
      refine ⟨.dict (Dict.set d (keyOf ti p.name) w'), ?_, ?_, ?_, _, rfl⟩
      · rw [modAt_cons ti f p ps hp, onLast, enterKey_of_get _ _ _ _ _ hd, hw1]; rfl
      · exact At.key (Dict.get?_set_self _ _ _) hw2
      · intro e; rw [hw3 e, Dict.set_get?_self d _ w hd]
    simp only [pkeys, List.map_cons] at hat
    cases hat with
    | key hd hw =>
      obtain ⟨R', h1, h2, h3, _⟩ := key _ _ hd hw
      exact ⟨R', h1, h2, h3⟩
    | @last k ks xs d _ hl hd =>
      cases hd with
      | key hd hw =>
        obtain ⟨R', h1, h2, h3, d', h4⟩ := key _ _ hd hw
        have hx := getLast?_eq_some_split hl
        refine ⟨.list (xs.dropLast ++ [R']), ?_, ?_, ?_⟩
        · rw [modAt_cons ti f p ps hp] at h1 ⊢
          rw [hx, onLast_list_append, h1]; simp
        · subst h4
          exact At.last (by simp) h2
        · intro e; rw [h3 e]; rw [← hx]

theorem modAt_Absent {α : Type} (ti : Bool) (f : Val → PyM (Val × α)) (path : List PItem) (hnn : NN path)
    (R : Val) (hat : Absent (pkeys ti path) R) (x' : Val) (a : α) (hf : f (leaf path) = .ok (x', a)) :
    ∃ R', modAt ti f path R = .ok (R', some a) ∧ At (pkeys ti path) R' x' := by
  induction path generalizing R with
  | nil => simp only [pkeys, List.map_nil] at hat; cases hat
  | cons p ps ih =>
    obtain ⟨hp, hps⟩ := NN_cons hnn
    have hfresh : ∀ R0, R0 = Val.dict (freshDict ti (p :: ps)) →
        ∃ R', modAt ti f (p :: ps) R0 = .ok (R', some a) ∧ At (pkeys ti (p :: ps)) R' x' ∧ ∃ d', R' = .dict d' := by
      intro R0 e; subst e
      obtain ⟨R', h1, h2, _⟩ := modAt_At ti f (p :: ps) hnn _ _ (At_fresh ti (p :: ps) (by simp)) x' a hf
      refine ⟨R', h1, h2, ?_⟩
      rw [modAt_cons ti f p ps hp, onLast] at h1
      obtain ⟨w, hw, -, -⟩ := freshDict_cons ti p ps
      rw [hw, enterKey_of_get _ _ _ _ w (by simp [Dict.get?_cons])] at h1
      simp only [bind_ok_iff, pure_ok, Except.ok.injEq, Prod.mk.injEq] at h1
      obtain ⟨r, _, h, _⟩ := h1
      exact ⟨_, h.symm⟩
    have dictCase : ∀ d, Absent (pkeys ti (p :: ps)) (.dict d) →
        ∃ R', modAt ti f (p :: ps) (.dict d) = .ok (R', some a) ∧ At (pkeys ti (p :: ps)) R' x' ∧
          ∃ d', R' = .dict d' := by
      intro d hd
      simp only [pkeys, List.map_cons] at hd
      cases hd with
      | missing hd =>
        obtain ⟨w, hw, h1, h2⟩ := freshDict_cons ti p ps
        obtain ⟨R', hr1, hr2, d', hr3⟩ := hfresh _ rfl
        rw [modAt_cons ti f p ps hp, onLast, hw, enterKey_of_get _ _ _ _ w (by simp [Dict.get?_cons])] at hr1
        simp only [bind_ok_iff, pure_ok, Except.ok.injEq, Prod.mk.injEq] at hr1
        obtain ⟨r, hr4, hr5, hr6⟩ := hr1
        subst hr3
        refine ⟨.dict (d ++ [(keyOf ti p.name, r.1)]), ?_, ?_, _, rfl⟩
        · rw [modAt_cons ti f p ps hp, onLast, hw, enterKey_of_missing _ _ _ _ hd, hr4]
          simp [hr6]
        · simp only [pkeys, List.map_cons] at hr2 ⊢
          cases hr2 with
          | key hg hat2 =>
            injection hr5 with hr5
            rw [← hr5] at hg
            simp only [Dict.set, if_true, Dict.get?_cons, Option.some.injEq] at hg
            refine At.key (w := r.1) ?_ (by rw [hg]; exact hat2)
            rw [Dict.get?_append, hd]; simp [Dict.get?_cons]
      | key hd hw =>
        rename_i w
        have hl : leaf (p :: ps) = leaf ps := by
          cases ps with
          | nil => simp only [List.map_nil] at hw; cases hw
          | cons q qs => exact leaf_cons p q qs
        rw [hl] at hf
        obtain ⟨w', hw1, hw2⟩ := ih hps w hw hf
        refine ⟨.dict (Dict.set d (keyOf ti p.name) w'), ?_, ?_, _, rfl⟩
        · rw [modAt_cons ti f p ps hp, onLast, enterKey_of_get _ _ _ _ _ hd, hw1]; rfl
        · exact At.key (Dict.get?_set_self _ _ _) hw2
    have hat0 := hat
    simp only [pkeys, List.map_cons] at hat
    cases hat with
    | missing hd => obtain ⟨R', h1, h2, _⟩ := dictCase _ hat0; exact ⟨R', h1, h2⟩
    | key hd hw => obtain ⟨R', h1, h2, _⟩ := dictCase _ hat0; exact ⟨R', h1, h2⟩
    | empty =>
      obtain ⟨R', h1, h2, d', h3⟩ := hfresh _ rfl
      refine ⟨.list [R'], ?_, ?_⟩
      · rw [modAt_cons ti f p ps hp] at h1 ⊢
        rw [onLast] at h1
        rw [onLast_list_nil, h1]; rfl
      · subst h3; exact At.last (by simp) h2
    | last hl hd =>
      rename_i xs d
      obtain ⟨R', h1, h2, d', h3⟩ := dictCase d hd
      have hx := getLast?_eq_some_split hl
      refine ⟨.list (xs.dropLast ++ [R']), ?_, ?_⟩
      · rw [modAt_cons ti f p ps hp] at h1 ⊢
        rw [hx, onLast_list_append, h1]; simp
      · subst h3; exact At.last (by simp) h2

theorem onLast_scalar {α : Type} (new : Dict Key Val) (h : Dict Key Val → PyM (Val × Option α)) (v : Val)
    (hv : IsScalar v) : onLast new h v = .ok (v, none) := by
  cases v <;> simp_all [IsScalar, onLast]

theorem modAt_Blocked {α : Type} (ti : Bool) (f : Val → PyM (Val × α)) (path : List PItem) (hnn : NN path)
    (R : Val) (hb : Blocked (pkeys ti path) R) (a : α)
    (hf : ∀ v, IsScalar v → f v = .ok (v, a)) :
    ∃ b, modAt ti f path R = .ok (R, b) ∧ (b = none ∨ b = some a) := by
  induction path generalizing R with
  | nil =>
    simp only [pkeys, List.map_nil] at hb
    cases hb with
    | here hs => exact ⟨some a, by simp [modAt, hf R hs], Or.inr rfl⟩
  | cons p ps ih =>
    obtain ⟨hp, hps⟩ := NN_cons hnn
    generalize hks : pkeys ti (p :: ps) = ks at hb
    induction hb with
    | here hs => exact ⟨none, by rw [modAt_cons ti f p ps hp, onLast_scalar _ _ _ hs], Or.inl rfl⟩
    | key hd hw _ =>
      rename_i w _
      simp only [pkeys, List.map_cons, List.cons.injEq] at hks
      obtain ⟨hk, hks⟩ := hks
      rw [← hks] at hw
      obtain ⟨b, h1, h2⟩ := ih hps w hw
      refine ⟨b, ?_, h2⟩
      rw [← hk] at hd
      rw [modAt_cons ti f p ps hp, onLast, enterKey_of_get _ _ _ _ _ hd, h1]
      simp [Dict.set_get?_self _ _ _ hd]
    | last hl hy ih2 =>
      rename_i xs y
      obtain ⟨b, h1, h2⟩ := ih2 hks
      refine ⟨b, ?_, h2⟩
      have hx := getLast?_eq_some_split hl
      rw [modAt_cons ti f p ps hp] at h1 ⊢
      rw [hx, onLast_list_append, h1]; simp

/-! ### Frame: what diverges from the path is untouched -/

/-- every address that diverges from the keys has the same value in both trees -/
def Frame (ks : List Key) (R R' : Val) : Prop := ∀ a, Diverge (keysOf a) ks → Spec.get a R' = Spec.get a R

theorem Frame.refl (ks : List Key) (R : Val) : Frame ks R R := fun _ _ => rfl

theorem Frame.trans {ks : List Key} {R R' R'' : Val} (h : Frame ks R R') (h2 : Frame ks R' R'') :
    Frame ks R R'' := fun a ha => (h2 a ha).trans (h a ha)

theorem Frame_nil (R R' : Val) : Frame [] R R' := fun _ h => absurd (List.nil_prefix) h.2

theorem diverge_cons_same {k : Key} {as ks : List Key} (h : Diverge (k :: as) (k :: ks)) : Diverge as ks := by
  unfold Diverge at *
  simpa using h

theorem not_diverge_nil_left (ks : List Key) : ¬ Diverge [] ks := fun h => h.1 List.nil_prefix

@[simp] theorem get_idx_dict (i : Nat) (a : List Sel) (d : Dict Key Val) :
    Spec.get (.idx i :: a) (.dict d) = none := by simp [Spec.get]
@[simp] theorem get_key_list (k : Key) (a : List Sel) (xs : List Val) :
    Spec.get (.key k :: a) (.list xs) = none := by simp [Spec.get]
theorem get_key_dict (k : Key) (a : List Sel) (d : Dict Key Val) :
    Spec.get (.key k :: a) (.dict d) = (Dict.get? d k).bind (Spec.get a) := rfl
theorem get_idx_list (i : Nat) (a : List Sel) (xs : List Val) :
    Spec.get (.idx i :: a) (.list xs) = (xs[i]?).bind (Spec.get a) := rfl

theorem Frame_set {k : Key} {ks : List Key} {d : Dict Key Val} {w w' : Val} (hd : Dict.get? d k = some w)
    (h : Frame ks w w') : Frame (k :: ks) (.dict d) (.dict (Dict.set d k w')) := by
  intro a ha
  cases a with
  | nil => exact absurd ha (not_diverge_nil_left _)
  | cons s a =>
    cases s with
    | idx i => simp
    | key q =>
      rw [get_key_dict, get_key_dict, Dict.get?_set]
      by_cases e : k = q
      · subst e
        simp only [if_true, hd, Option.bind_some]
        exact h a (diverge_cons_same (by simpa [keysOf] using ha))
      · simp [e]

theorem Frame_last {k : Key} {ks : List Key} {xs : List Val} {y y' : Val}
    (h : Frame (k :: ks) y y') : Frame (k :: ks) (.list (xs ++ [y])) (.list (xs ++ [y'])) := by
  intro a ha
  cases a with
  | nil => exact absurd ha (not_diverge_nil_left _)
  | cons s a =>
    cases s with
    | key q => simp
    | idx i =>
      rw [get_idx_list, get_idx_list]
      rcases Nat.lt_trichotomy i xs.length with hi | hi | hi
      · rw [List.getElem?_append_left hi, List.getElem?_append_left hi]
      · subst hi
        simp only [List.getElem?_concat_length, Option.bind_some]
        exact h a (by simpa [keysOf] using ha)
      · rw [List.getElem?_eq_none (by simp; omega), List.getElem?_eq_none (by simp; omega)]

theorem get_fresh (ti : Bool) (path : List PItem) (a : List Sel) (h : Diverge (keysOf a) (pkeys ti path)) :
    Spec.get a (.dict (freshDict ti path)) = none := by
  induction path generalizing a with
  | nil => exact absurd List.nil_prefix h.2
  | cons p ps ih =>
    obtain ⟨w, hw, h1, h2⟩ := freshDict_cons ti p ps
    rw [hw]
    cases a with
    | nil => exact absurd h (not_diverge_nil_left _)
    | cons s a =>
      cases s with
      | idx i => simp
      | key q =>
        rw [get_key_dict, Dict.get?_cons]
        by_cases e : keyOf ti p.name = q
        · subst e
          simp only [if_true, Option.bind_some, Dict.get?_nil]
          have h3 : Diverge (keysOf a) (pkeys ti ps) := diverge_cons_same (by simpa [keysOf, pkeys] using h)
          cases ps with
          | nil => exact absurd List.nil_prefix h3.2
          | cons q qs =>
            rcases h1 q qs rfl with e | e
            · rw [e]; exact ih a h3
            · rw [e]
              cases a with
              | nil => exact absurd h3 (not_diverge_nil_left _)
              | cons s a =>
                cases s with
                | key q => simp
                | idx i =>
                  rw [get_idx_list]
                  cases i with
                  | zero => simpa using ih a (by simpa [keysOf] using h3)
                  | succ i => simp
        · simp [e]

theorem Frame_update_fresh (ti : Bool) (path : List PItem) (hne : path ≠ []) (d : Dict Key Val)
    (h : ∀ p ps, path = p :: ps → Dict.get? d (keyOf ti p.name) = none) :
    Frame (pkeys ti path) (.dict d) (.dict (Dict.update d (freshDict ti path))) := by
  cases path with
  | nil => exact absurd rfl hne
  | cons p ps =>
    have hd := h p ps rfl
    intro a ha
    obtain ⟨w, hw, -, -⟩ := freshDict_cons ti p ps
    have hf := get_fresh ti (p :: ps) a ha
    rw [hw] at hf ⊢
    cases a with
    | nil => exact absurd ha (not_diverge_nil_left _)
    | cons s a =>
      cases s with
      | idx i => simp
      | key q =>
        rw [get_key_dict, get_key_dict]
        rw [get_key_dict] at hf
        have : Dict.update d [(keyOf ti p.name, w)] = Dict.set d (keyOf ti p.name) w := rfl
        rw [this, Dict.get?_set]
        by_cases e : keyOf ti p.name = q
        · subst e
          simp only [Dict.get?_cons, if_true, Option.bind_some] at hf
          simp [hd, hf]
        · simp [e]

mutual
theorem onLast_Frame {α : Type} (k : Key) (ks : List Key) (new : Dict Key Val)
    (h : Dict Key Val → PyM (Val × Option α))
    (hnew : ∀ a, Diverge (keysOf a) (k :: ks) → Spec.get a (.dict new) = none)
    (hh : ∀ d r, h d = .ok r → Frame (k :: ks) (.dict d) r.1) :
    ∀ (v : Val) r, onLast new h v = .ok r → Frame (k :: ks) v r.1
  | .dict d, r, e => by rw [onLast] at e; exact hh d r e
  | .list xs, r, e => by
    rw [onLast, bind_ok_iff] at e
    obtain ⟨b, hb, e⟩ := e
    simp only [pure_ok, Except.ok.injEq] at e
    rw [← e]
    exact onLastL_Frame k ks new h hnew hh xs b hb
  | .none, r, e => by rw [onLast_scalar _ _ _ (by simp [IsScalar])] at e; cases e; exact Frame.refl _ _
  | .bool _, r, e => by rw [onLast_scalar _ _ _ (by simp [IsScalar])] at e; cases e; exact Frame.refl _ _
  | .int _, r, e => by rw [onLast_scalar _ _ _ (by simp [IsScalar])] at e; cases e; exact Frame.refl _ _
  | .flt _, r, e => by rw [onLast_scalar _ _ _ (by simp [IsScalar])] at e; cases e; exact Frame.refl _ _
  | .str _, r, e => by rw [onLast_scalar _ _ _ (by simp [IsScalar])] at e; cases e; exact Frame.refl _ _
theorem onLastL_Frame {α : Type} (k : Key) (ks : List Key) (new : Dict Key Val)
    (h : Dict Key Val → PyM (Val × Option α))
    (hnew : ∀ a, Diverge (keysOf a) (k :: ks) → Spec.get a (.dict new) = none)
    (hh : ∀ d r, h d = .ok r → Frame (k :: ks) (.dict d) r.1) :
    ∀ (xs : List Val) r, onLastL new h xs = .ok r → Frame (k :: ks) (.list xs) (.list r.1)
  | [], r, e => by
    rw [onLastL, bind_ok_iff] at e
    obtain ⟨b, hb, e⟩ := e
    simp only [pure_ok, Except.ok.injEq] at e
    rw [← e]
    intro a ha
    cases a with
    | nil => exact absurd ha (not_diverge_nil_left _)
    | cons s a =>
      cases s with
      | key q => simp
      | idx i =>
        rw [get_idx_list, get_idx_list]
        cases i with
        | zero =>
          have ha' : Diverge (keysOf a) (k :: ks) := by simpa [keysOf] using ha
          simp [hh new b hb a ha', hnew a ha']
        | succ i => simp
  | [x], r, e => by
    rw [onLastL, bind_ok_iff] at e
    obtain ⟨b, hb, e⟩ := e
    simp only [pure_ok, Except.ok.injEq] at e
    rw [← e]
    exact Frame_last (xs := []) (onLast_Frame k ks new h hnew hh x b hb)
  | x :: y :: zs, r, e => by
    rw [onLastL, bind_ok_iff] at e
    obtain ⟨b, hb, e⟩ := e
    simp only [pure_ok, Except.ok.injEq] at e
    rw [← e]
    have ih := onLastL_Frame k ks new h hnew hh (y :: zs) b hb
    intro a ha
    cases a with
    | nil => exact absurd ha (not_diverge_nil_left _)
    | cons s a =>
      cases s with
      | key q => simp
      | idx i =>
        cases i with
        | zero => simp [get_idx_list]
        | succ i =>
          have := ih (.idx i :: a) (by simpa [keysOf] using ha)
          simpa [get_idx_list] using this
end

theorem modAt_Frame {α : Type} (ti : Bool) (f : Val → PyM (Val × α)) (path : List PItem) (hnn : NN path)
    (R : Val) (r : Val × Option α) (e : modAt ti f path R = .ok r) : Frame (pkeys ti path) R r.1 := by
  induction path generalizing R r with
  | nil => exact Frame_nil _ _
  | cons p ps ih =>
    obtain ⟨hp, hps⟩ := NN_cons hnn
    rw [modAt_cons ti f p ps hp] at e
    refine onLast_Frame (keyOf ti p.name) (pkeys ti ps) _ _ (fun a ha => get_fresh ti (p :: ps) a ha) ?_ R r e
    intro d r2 e2
    cases hg : Dict.get? d (keyOf ti p.name) with
    | some w =>
      rw [enterKey_of_get _ _ _ _ _ hg, bind_ok_iff] at e2
      obtain ⟨b, hb, e2⟩ := e2
      simp only [pure_ok, Except.ok.injEq] at e2
      rw [← e2]
      exact Frame_set hg (ih hps w b hb)
    | none =>
      obtain ⟨w, hw, -, -⟩ := freshDict_cons ti p ps
      have hfu := Frame_update_fresh ti (p :: ps) (by simp) d (by intro p' ps' e; cases e; exact hg)
      rw [hw] at e2 hfu
      rw [enterKey_of_missing _ _ _ _ hg, bind_ok_iff] at e2
      obtain ⟨b, hb, e2⟩ := e2
      simp only [pure_ok, Except.ok.injEq] at e2
      rw [← e2]
      have h3 : keyOf ti p.name ∉ Dict.keys d := (Dict.get?_eq_none_iff d _).1 hg
      have : d ++ [(keyOf ti p.name, b.1)] = Dict.set (Dict.update d [(keyOf ti p.name, w)]) (keyOf ti p.name) b.1 := by
        have h0 : Dict.update d [(keyOf ti p.name, w)] = Dict.set d (keyOf ti p.name) w := rfl
        rw [h0, Dict.set_set, Dict.set_of_not_mem _ _ _ h3]
      rw [this]
      refine Frame.trans hfu (Frame_set (w := w) ?_ (ih hps w b hb))
      have h0 : Dict.update d [(keyOf ti p.name, w)] = Dict.set d (keyOf ti p.name) w := rfl
      rw [h0, Dict.get?_set_self]

/-! ### `value_to_list` -/

theorem valueToList_At (r : Val) (path : List PItem) (hnn : NN path) (R x : Val)
    (hat : At (path.map (fun p => Key.s p.name)) R x) :
    ∃ R', valueToList r path R = .ok R' ∧ At (path.map (fun p => Key.s p.name)) R' (.list [x, r]) ∧
      Frame (path.map (fun p => Key.s p.name)) R R' := by
  induction path generalizing R with
  | nil => cases hat; exact ⟨_, rfl, At.here _, Frame_nil _ _⟩
  | cons p ps ih =>
    obtain ⟨hp, hps⟩ := NN_cons hnn
    simp only [List.map_cons] at hat ⊢
    cases hat with
    | key hd hw =>
      rename_i d w
      obtain ⟨w', h1, h2, h3⟩ := ih hps w hw
      refine ⟨.dict (Dict.set d (.s p.name) w'), ?_, At.key (Dict.get?_set_self _ _ _) h2, Frame_set hd h3⟩
      rw [valueToList_cons r p ps hp, vtlName]
      simp only [hd, h1, ok_bind, pure_ok]
    | last hl hd =>
      rename_i xs d
      cases hd with
      | key hd hw =>
        rename_i w
        obtain ⟨w', h1, h2, h3⟩ := ih hps w hw
        refine ⟨.list (xs.dropLast ++ [.dict (Dict.set d (.s p.name) w')]), ?_, ?_, ?_⟩
        · rw [valueToList_cons r p ps hp, vtlName]
          simp only [hl, hd, h1, ok_bind, pure_ok]
        · exact At.last (d := Dict.set d (.s p.name) w') (by simp) (At.key (Dict.get?_set_self _ _ _) h2)
        · have hx := getLast?_eq_some_split hl
          have h4 := Frame_last (xs := xs.dropLast) (Frame_set hd h3)
          rw [← hx] at h4
          exact h4

/-! ### every tree is one of the three kinds -/

theorem NoNestedD_get {d : Dict Key Val} {k : Key} {w : Val} (h : NoNestedD d) (hd : Dict.get? d k = some w) :
    NoNested w := by
  induction d with
  | nil => simp at hd
  | cons a d ih =>
    obtain ⟨k', v'⟩ := a
    rw [NoNestedD] at h
    rw [Dict.get?_cons] at hd
    by_cases e : k' = k
    · simp only [e, if_true, Option.some.injEq] at hd; rw [← hd]; exact h.1
    · simp only [e, if_false] at hd; exact ih h.2 hd

theorem NoNestedL_last {xs : List Val} {y : Val} (h : NoNestedL xs) (hl : xs.getLast? = some y) :
    NoNested y ∧ ∀ ys, y ≠ .list ys := by
  have hx := getLast?_eq_some_split hl
  rw [hx] at h
  generalize xs.dropLast = zs at h
  induction zs with
  | nil => simp only [List.nil_append, NoNestedL] at h; exact ⟨h.2.1, h.1⟩
  | cons z zs ih => simp only [List.cons_append, NoNestedL] at h; exact ih h.2.2

theorem trichotomy (ks : List Key) (R : Val) (h : NoNested R) :
    (∃ x, At ks R x) ∨ Absent ks R ∨ Blocked ks R := by
  induction ks generalizing R with
  | nil => exact Or.inl ⟨R, At.here _⟩
  | cons k ks ih =>
    have dictCase : ∀ d, NoNestedD d →
        (∃ x, At (k :: ks) (.dict d) x) ∨ Absent (k :: ks) (.dict d) ∨ Blocked (k :: ks) (.dict d) := by
      intro d hd
      cases hg : Dict.get? d k with
      | none => exact Or.inr (Or.inl (Absent.missing hg))
      | some w =>
        rcases ih w (NoNestedD_get hd hg) with ⟨x, hx⟩ | hx | hx
        · exact Or.inl ⟨x, At.key hg hx⟩
        · exact Or.inr (Or.inl (Absent.key hg hx))
        · exact Or.inr (Or.inr (Blocked.key hg hx))
    cases R with
    | dict d => rw [NoNested] at h; exact dictCase d h
    | list xs =>
      rw [NoNested] at h
      cases hl : xs.getLast? with
      | none =>
        have : xs = [] := List.getLast?_eq_none_iff.1 hl
        subst this; exact Or.inr (Or.inl Absent.empty)
      | some y =>
        obtain ⟨h1, h2⟩ := NoNestedL_last h hl
        cases y with
        | list ys => exact absurd rfl (h2 ys)
        | dict d =>
          rw [NoNested] at h1
          rcases dictCase d h1 with ⟨x, hx⟩ | hx | hx
          · exact Or.inl ⟨x, At.last hl hx⟩
          · exact Or.inr (Or.inl (Absent.last hl hx))
          · exact Or.inr (Or.inr (Blocked.last hl hx))
        | _ => exact Or.inr (Or.inr (Blocked.last hl (Blocked.here trivial)))
    | _ => exact Or.inr (Or.inr (Blocked.here trivial))

/-! ### `save` -/

theorem popNull_NN (path : List PItem) (h : NN path) (R : Val) : popNull path R = path := by
  cases R with
  | dict d =>
    cases path with
    | nil => rfl
    | cons p ps =>
      cases ps with
      | nil => rfl
      | cons q qs => simp only [popNull, (NN_cons h).1, if_false]
  | _ => rfl

theorem saveElem_scalar (m ds : Bool) (data v : Val) (h : IsScalar v) : saveElem m ds data v = .ok (v, false) := by
  cases v <;> simp_all [IsScalar, saveElem]

theorem save_of_modAt (ti m : Bool) (data : Val) (path : List PItem) (R R' : Val) (b : Option Bool)
    (h : modAt ti (saveElem m (isDStar path) data) path R = .ok (R', b)) (hb : b ≠ some true) :
    save ti m data path R = .ok R' := by
  simp [save, h, hb]

theorem save_At (ti m : Bool) (data : Val) (path : List PItem) (hnn : NN path) (R x x' : Val)
    (hat : At (pkeys ti path) R x) (hf : saveElem m (isDStar path) data x = .ok (x', false)) :
    ∃ R', save ti m data path R = .ok R' ∧ At (pkeys ti path) R' x' := by
  obtain ⟨R', h1, h2, _⟩ := modAt_At ti _ path hnn R x hat x' false hf
  exact ⟨R', save_of_modAt _ _ _ _ _ _ _ h1 (by simp), h2⟩

theorem save_Absent (ti m : Bool) (data : Val) (path : List PItem) (hnn : NN path) (R x' : Val)
    (hat : Absent (pkeys ti path) R) (hf : saveElem m (isDStar path) data (leaf path) = .ok (x', false)) :
    ∃ R', save ti m data path R = .ok R' ∧ At (pkeys ti path) R' x' := by
  obtain ⟨R', h1, h2⟩ := modAt_Absent ti _ path hnn R hat x' false hf
  exact ⟨R', save_of_modAt _ _ _ _ _ _ _ h1 (by simp), h2⟩

theorem save_Blocked (ti m : Bool) (data : Val) (path : List PItem) (hnn : NN path) (R : Val)
    (hb : Blocked (pkeys ti path) R) : save ti m data path R = .ok R := by
  obtain ⟨b, h1, h2⟩ := modAt_Blocked ti (saveElem m (isDStar path) data) path hnn R hb false
    (fun v hv => saveElem_scalar _ _ _ _ hv)
  refine save_of_modAt _ _ _ _ _ _ _ h1 ?_
  rcases h2 with h2 | h2 <;> simp [h2]

/-- no name of the path is changed into a number -/
def NoInt (ti : Bool) (path : List PItem) : Prop := ∀ p ∈ path, keyOf ti p.name = .s p.name

/-- with the option on no name of the path is all digits -/
theorem NoInt_of {ti : Bool} {path : List PItem} (h : ti = true → ∀ p ∈ path, isdigitS p.name = false) : NoInt ti path := by
  intro p hp
  cases ti
  · simp [keyOf]
  · simp [keyOf, h rfl p hp]

theorem pkeys_NoInt {ti : Bool} {path : List PItem} (h : NoInt ti path) :
    pkeys ti path = path.map (fun p => Key.s p.name) := by
  unfold pkeys
  exact List.map_congr_left h

theorem save_tolist (ti : Bool) (data : Val) (path : List PItem) (hnn : NN path) (hni : NoInt ti path)
    (R : Val) (e : Dict Key Val) (hat : At (pkeys ti path) R (.dict e)) (he : e ≠ []) (hd : isDStar path = false) :
    ∃ R', save ti false data path R = .ok R' ∧ At (pkeys ti path) R' (.list [.dict e, data]) := by
  have hf : saveElem false (isDStar path) data (.dict e) = .ok (.dict e, true) := by
    simp [saveElem, hd, he]
  obtain ⟨R1, h1, _, h3⟩ := modAt_At ti _ path hnn R _ hat _ true hf
  have h3 := h3 rfl; subst h3
  rw [pkeys_NoInt hni] at hat ⊢
  obtain ⟨R', h4, h5, _⟩ := valueToList_At data path hnn R1 _ hat
  exact ⟨R', by simp [save, h1, popNull_NN path hnn, h4], h5⟩

theorem leaf_star {path : List PItem} {p : PItem} (h : path.getLast? = some p) (hs : p.stars = 1) :
    leaf path = .list [] := by simp [leaf, h, hs]

theorem leaf_nostar {path : List PItem} {p : PItem} (h : path.getLast? = some p) (hs : p.stars ≠ 1) :
    leaf path = .dict [] := by simp [leaf, h, hs]

theorem isDStar_of {path : List PItem} {p : PItem} (h : path.getLast? = some p) :
    isDStar path = (p.stars == 2) := by simp [isDStar, h]

theorem saveElem_leaf_flag (m ds : Bool) (data : Val) (path : List PItem) (r : Val × Bool)
    (h : saveElem m ds data (leaf path) = .ok r) : r.2 = false := by
  unfold leaf at h
  split at h
  · rename_i p _
    by_cases hs : p.stars = 1
    · simp only [hs, if_true, saveElem] at h
      split at h
      · split at h
        · simp [mergeLast] at h
        · cases h; rfl
      · cases h; rfl
    · simp only [hs, if_false, saveElem] at h
      split at h
      · split at h
        · rw [bind_ok_iff] at h; obtain ⟨_, _, h⟩ := h; cases h; rfl
        · simp at h
      · split at h
        · split at h
          · cases h; rfl
          · simp at h
        · simp only [ne_eq, not_true_eq_false, if_false] at h
          rw [bind_ok_iff] at h; obtain ⟨_, _, h⟩ := h; cases h; rfl
  · simp only [saveElem] at h
    split at h
    · split at h
      · rw [bind_ok_iff] at h; obtain ⟨_, _, h⟩ := h; cases h; rfl
      · simp at h
    · split at h
      · split at h
        · cases h; rfl
        · simp at h
      · simp only [ne_eq, not_true_eq_false, if_false] at h
        rw [bind_ok_iff] at h; obtain ⟨_, _, h⟩ := h; cases h; rfl

theorem saveElem_flag_true (m ds : Bool) (data x x' : Val) (h : saveElem m ds data x = .ok (x', true)) :
    x' = x ∧ ∃ e, x = .dict e ∧ e ≠ [] ∧ m = false ∧ ds = false := by
  cases x with
  | list xs =>
    simp only [saveElem] at h
    split at h
    · split at h
      · rw [bind_ok_iff] at h; obtain ⟨_, _, h⟩ := h; simp at h
      · simp at h
    · simp at h
  | dict e =>
    simp only [saveElem] at h
    split at h
    · split at h
      · rw [bind_ok_iff] at h; obtain ⟨_, _, h⟩ := h; simp at h
      · simp at h
    · split at h
      · split at h <;> simp at h
      · split at h
        · rename_i h1 h2 h3
          simp only [pure_ok, Except.ok.injEq, Prod.mk.injEq] at h
          exact ⟨h.1.symm, e, rfl, h3, by simpa using h1, by simpa using h2⟩
        · rw [bind_ok_iff] at h; obtain ⟨_, _, h⟩ := h; simp at h
  | _ => simp [saveElem] at h

/-- error of the change is the error of the whole -/
theorem modAt_At_err {α : Type} (ti : Bool) (f : Val → PyM (Val × α)) (path : List PItem) (hnn : NN path)
    (R x : Val) (hat : At (pkeys ti path) R x) (er : Err) (hf : f x = .error er) :
    modAt ti f path R = .error er := by
  induction path generalizing R with
  | nil => cases hat; simp [modAt, hf]
  | cons p ps ih =>
    obtain ⟨hp, hps⟩ := NN_cons hnn
    simp only [pkeys, List.map_cons] at hat
    rw [modAt_cons ti f p ps hp]
    cases hat with
    | key hd hw => rw [onLast, enterKey_of_get _ _ _ _ _ hd, ih hps _ hw]; rfl
    | last hl hd =>
      cases hd with
      | key hd hw =>
        rw [getLast?_eq_some_split hl, onLast_list_append, onLast, enterKey_of_get _ _ _ _ _ hd, ih hps _ hw]; rfl

theorem modAt_Absent_err {α : Type} (ti : Bool) (f : Val → PyM (Val × α)) (path : List PItem) (hnn : NN path)
    (R : Val) (hat : Absent (pkeys ti path) R) (er : Err) (hf : f (leaf path) = .error er) :
    modAt ti f path R = .error er := by
  induction path generalizing R with
  | nil => simp only [pkeys, List.map_nil] at hat; cases hat
  | cons p ps ih =>
    obtain ⟨hp, hps⟩ := NN_cons hnn
    have hfresh := modAt_At_err ti f (p :: ps) hnn _ _ (At_fresh ti (p :: ps) (by simp)) er hf
    rw [modAt_cons ti f p ps hp, onLast] at hfresh
    have dictCase : ∀ d, Absent (pkeys ti (p :: ps)) (.dict d) →
        enterKey (keyOf ti p.name) (freshDict ti (p :: ps)) (modAt ti f ps) d = .error er := by
      intro d hd
      simp only [pkeys, List.map_cons] at hd
      cases hd with
      | missing hd =>
        obtain ⟨w, hw, -, -⟩ := freshDict_cons ti p ps
        rw [hw] at hfresh ⊢
        rw [enterKey_of_get _ _ _ _ w (by simp [Dict.get?_cons])] at hfresh
        rw [enterKey_of_missing _ _ _ _ hd]
        cases hr : modAt ti f ps w with
        | error e => rw [hr] at hfresh; simpa using hfresh
        | ok r => rw [hr] at hfresh; simp at hfresh
      | key hd hw =>
        have hl : leaf (p :: ps) = leaf ps := by
          cases ps with
          | nil => simp only [List.map_nil] at hw; cases hw
          | cons q qs => exact leaf_cons p q qs
        rw [hl] at hf
        rw [enterKey_of_get _ _ _ _ _ hd, ih hps _ hw hf]; rfl
    have hat0 := hat
    simp only [pkeys, List.map_cons] at hat
    rw [modAt_cons ti f p ps hp]
    cases hat with
    | missing hd => rw [onLast]; exact dictCase _ hat0
    | key hd hw => rw [onLast]; exact dictCase _ hat0
    | empty => rw [onLast_list_nil, hfresh]; rfl
    | last hl hd => rw [getLast?_eq_some_split hl, onLast_list_append, onLast, dictCase _ hd]; rfl

/-- `modAt` asks for `value_to_list` only if the path holds a non-empty dictionary, and leaves the tree as it is -/
theorem modAt_flag_true (ti m : Bool) (data : Val) (path : List PItem) (hnn : NN path) (R R1 : Val)
    (hno : NoNested R) (h : modAt ti (saveElem m (isDStar path) data) path R = .ok (R1, some true)) :
    R1 = R ∧ ∃ e, At (pkeys ti path) R (.dict e) ∧ e ≠ [] ∧ m = false ∧ isDStar path = false := by
  rcases trichotomy (pkeys ti path) R hno with ⟨x, hx⟩ | hx | hx
  · cases hf : saveElem m (isDStar path) data x with
    | error er => rw [modAt_At_err ti _ path hnn R x hx er hf] at h; simp at h
    | ok r =>
      obtain ⟨x', b⟩ := r
      obtain ⟨R', h1, _, h3⟩ := modAt_At ti _ path hnn R x hx x' b hf
      rw [h1] at h
      simp only [Except.ok.injEq, Prod.mk.injEq, Option.some.injEq] at h
      obtain ⟨h4, h5⟩ := h
      subst h5
      obtain ⟨h6, e, h7, h8, h9, h10⟩ := saveElem_flag_true _ _ _ _ _ hf
      refine ⟨?_, e, h7 ▸ hx, h8, h9, h10⟩
      rw [← h4]; exact h3 h6
  · cases hf : saveElem m (isDStar path) data (leaf path) with
    | error er => rw [modAt_Absent_err ti _ path hnn R hx er hf] at h; simp at h
    | ok r =>
      obtain ⟨x', b⟩ := r
      have hb := saveElem_leaf_flag _ _ _ _ _ hf
      simp only at hb; subst hb
      obtain ⟨R', h1, _⟩ := modAt_Absent ti _ path hnn R hx x' false hf
      rw [h1] at h; simp at h
  · obtain ⟨b, h1, h2⟩ := modAt_Blocked ti (saveElem m (isDStar path) data) path hnn R hx false
      (fun v hv => saveElem_scalar _ _ _ _ hv)
    rw [h1] at h
    simp only [Except.ok.injEq, Prod.mk.injEq] at h
    rcases h2 with h2 | h2 <;> simp [h2] at h

theorem save_Frame (ti m : Bool) (data : Val) (path : List PItem) (hnn : NN path) (hni : NoInt ti path)
    (R R' : Val) (hno : NoNested R) (h : save ti m data path R = .ok R') : Frame (pkeys ti path) R R' := by
  simp only [save, bind_ok_iff] at h
  obtain ⟨r, h1, h2⟩ := h
  obtain ⟨R1, b⟩ := r
  have hf := modAt_Frame ti _ path hnn R _ h1
  by_cases hb : b = some true
  · subst hb
    obtain ⟨h3, e, h4, -, -, -⟩ := modAt_flag_true ti m data path hnn R R1 hno h1
    subst h3
    simp only [if_true, popNull_NN path hnn] at h2
    rw [pkeys_NoInt hni] at h4 ⊢
    obtain ⟨R2, h5, _, h6⟩ := valueToList_At data path hnn R1 _ h4
    rw [h5] at h2
    cases h2; exact h6
  · simp only [hb, if_false, pure_ok, Except.ok.injEq] at h2
    rw [← h2]; exact hf

end TTP
