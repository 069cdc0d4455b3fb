import Verif.Model.Group
import Verif.Proofs.PyStr
import Verif.Proofs.Save
import Verif.Spec.Group
/-!
# Proofs about group functions
-/

namespace TTP
open Py Spec

namespace GroupFn
open MatchFn

/-- names as arguments -/
abbrev strs (names : List Str) : List Val := names.map Val.str

theorem inData_str (d : Dict Key Val) (n : Str) : inData (.str n) (.dict d) = .ok (valueOf d n).isSome := rfl

theorem defaultOf_str (D : Dict Key Val) (n : Str) : defaultOf D (.str n) = .ok (valueOf D n) := rfl

theorem getItem_str (d : Dict Key Val) (n : Str) (x : Val) (h : valueOf d n = some x) : getItem (.dict d) (.str n) = .ok x := by
  unfold valueOf at h
  show (match Dict.get? d (.s n) with
    | some v => pure v
    | none => throw .keyError : PyM Val) = _
  rw [h]; rfl

/-- the variable is in the record with the value of its default -/
def AtDefault (D d : Dict Key Val) (n : Str) : Prop := ∃ x y, valueOf d n = some x ∧ valueOf D n = some y ∧ pyEq y x = true

theorem containsFn_iff (D d : Dict Key Val) (names : List Str) :
    ∃ b, containsFn D (.dict d) (strs names) = .ok b ∧
      (b = true ↔ ∃ pre n post, names = pre ++ n :: post ∧ (∀ m ∈ pre, valueOf d m = none) ∧ (∃ x, valueOf d n = some x) ∧ ¬ AtDefault D d n) := by
  induction names with
  | nil =>
    refine ⟨false, rfl, by simp⟩
  | cons n names ih =>
    simp only [strs, List.map_cons, containsFn, inData_str, ok_bind]
    cases hv : valueOf d n with
    | none =>
      obtain ⟨b, h1, h2⟩ := ih
      refine ⟨b, by simpa using h1, ?_⟩
      rw [h2]
      constructor
      · rintro ⟨pre, m, post, rfl, h3, h4, h5⟩
        refine ⟨n :: pre, m, post, rfl, ?_, h4, h5⟩
        intro k hk
        rcases List.mem_cons.1 hk with rfl | hk
        · exact hv
        · exact h3 k hk
      · rintro ⟨pre, m, post, he, h3, ⟨x, h4⟩, h5⟩
        cases pre with
        | nil =>
          simp only [List.nil_append, List.cons.injEq] at he
          rw [← he.1, hv] at h4; cases h4
        | cons a pre =>
          simp only [List.cons_append, List.cons.injEq] at he
          exact ⟨pre, m, post, he.2, fun k hk => h3 k (List.mem_cons_of_mem _ hk), ⟨x, h4⟩, h5⟩
    | some x =>
      simp only [Option.isSome_some, if_true, defaultOf_str, ok_bind]
      have key : (∃ pre m post, n :: names = pre ++ m :: post ∧ (∀ k ∈ pre, valueOf d k = none) ∧ (∃ x, valueOf d m = some x) ∧ ¬ AtDefault D d m) ↔ ¬ AtDefault D d n := by
        constructor
        · rintro ⟨pre, m, post, he, h3, _, h5⟩
          cases pre with
          | nil =>
            simp only [List.nil_append, List.cons.injEq] at he
            rw [he.1]; exact h5
          | cons a pre =>
            simp only [List.cons_append, List.cons.injEq] at he
            have := h3 a (by simp)
            rw [← he.1, hv] at this; cases this
        · intro h; exact ⟨[], n, names, rfl, by simp, ⟨x, hv⟩, h⟩
      cases hD : valueOf D n with
      | none =>
        refine ⟨true, rfl, ?_⟩
        rw [key]
        simp only [true_iff]
        rintro ⟨_, y, _, h, _⟩
        rw [hD] at h; cases h
      | some y =>
        refine ⟨!pyEq y x, ?_, ?_⟩
        · simp only [getItem_str d n x hv, ok_bind]; rfl
        · rw [key]
          unfold AtDefault
          rw [hv, hD]
          cases hp : pyEq y x <;> simp [hp]

theorem containsall_iff (D d : Dict Key Val) (names : List Str) :
    ∃ b, containsall D (.dict d) (strs names) = .ok b ∧
      (b = true ↔ ∀ n ∈ names, (∃ x, valueOf d n = some x) ∧ ¬ AtDefault D d n) := by
  induction names with
  | nil => exact ⟨true, rfl, by simp⟩
  | cons n names ih =>
    obtain ⟨b, h1, h2⟩ := ih
    simp only [strs] at h1
    simp only [strs, List.map_cons, containsall, inData_str, ok_bind, List.forall_mem_cons, ← h2]
    cases hv : valueOf d n with
    | none => exact ⟨false, rfl, by simp⟩
    | some x =>
      simp only [Option.isSome_some, if_true, defaultOf_str, ok_bind]
      cases hD : valueOf D n with
      | none =>
        refine ⟨b, h1, ?_⟩
        have : ¬ AtDefault D d n := by
          rintro ⟨_, y, _, h, _⟩
          rw [hD] at h; cases h
        simp [this]
      | some y =>
        simp only [getItem_str d n x hv, ok_bind]
        have e : AtDefault D d n ↔ pyEq y x = true := by
          unfold AtDefault; rw [hv, hD]; simp
        rw [e]
        cases hp : pyEq y x with
        | true => exact ⟨false, rfl, by simp⟩
        | false => exact ⟨b, by simpa using h1, by simp⟩

theorem excludeFn_iff (D d : Dict Key Val) (names : List Str) :
    ∃ b, excludeFn D (.dict d) (strs names) = .ok b ∧
      (b = false ↔ ∃ n ∈ names, (∃ x, valueOf d n = some x) ∧ valueOf D n = none) := by
  induction names with
  | nil => exact ⟨true, rfl, by simp⟩
  | cons n names ih =>
    obtain ⟨b, h1, h2⟩ := ih
    simp only [strs] at h1
    simp only [strs, List.map_cons, excludeFn, inData_str, ok_bind, List.mem_cons, exists_eq_or_imp, ← h2]
    cases hv : valueOf d n with
    | none => exact ⟨b, by simpa using h1, by simp [hv]⟩
    | some x =>
      simp only [Option.isSome_some, if_true, defaultOf_str, ok_bind]
      cases hD : valueOf D n with
      | none => exact ⟨false, rfl, by simp [hv, hD]⟩
      | some y => exact ⟨b, h1, by simp [hD]⟩

theorem foundVars_eq (D d : Dict Key Val) (names : List Str) :
    foundVars D (.dict d) (strs names) = .ok (strs (names.filter (fun n => (valueOf d n).isSome && (valueOf D n).isNone))) := by
  induction names with
  | nil => rfl
  | cons n names ih =>
    simp only [strs] at ih
    simp only [strs, List.map_cons, foundVars, inData_str, ok_bind]
    cases hv : valueOf d n with
    | none => simp [hv, ih]
    | some x =>
      simp only [Option.isSome_some, if_true, defaultOf_str, ok_bind]
      cases hD : valueOf D n with
      | none => simp [hv, hD, ih, pure, Except.pure, bind, Except.bind]
      | some y => simp [hv, hD, ih]

theorem strs_inj {a b : List Str} (h : strs a = strs b) : a = b := by
  induction a generalizing b with
  | nil => cases b with
    | nil => rfl
    | cons x y => cases h
  | cons x xs ih =>
    cases b with
    | nil => cases h
    | cons y ys =>
      simp only [strs, List.map_cons, List.cons.injEq, Val.str.injEq] at h
      rw [h.1, ih h.2]

theorem excludeall_iff (D d : Dict Key Val) (names : List Str) :
    ∃ b, excludeall D (.dict d) (strs names) = .ok b ∧
      (b = false ↔ ∀ n ∈ names, (∃ x, valueOf d n = some x) ∧ valueOf D n = none) := by
  refine ⟨_, by unfold excludeall; rw [foundVars_eq, ok_bind]; rfl, ?_⟩
  simp only [Bool.not_eq_false', decide_eq_true_eq]
  constructor
  · intro h n hn
    have := strs_inj h
    rw [this, List.mem_filter] at hn
    have h2 := hn.2
    simp only [Bool.and_eq_true, Option.isSome_iff_exists, Option.isNone_iff_eq_none] at h2
    exact h2
  · intro h
    congr 1
    symm
    rw [List.filter_eq_self]
    intro n hn
    have := h n hn
    simp only [Bool.and_eq_true, Option.isSome_iff_exists, Option.isNone_iff_eq_none]
    exact this

/-! ## expand -/

/-- nothing is in the way of the path -/
def Clear : List Str → Val → Prop
  | [], _ => False
  | [_], .dict _ => True
  | k :: k2 :: ks, .dict d =>
    match Dict.get? d (.s k) with
    | none => True
    | some s => Clear (k2 :: ks) s
  | _ :: _, _ => False

theorem follow_set (d : Dict Key Val) (k : Str) (s : Val) (j : Str) (q : List Str) :
    follow (j :: q) (.dict (Dict.set d (.s k) s)) = if k = j then follow q s else follow (j :: q) (.dict d) := by
  simp only [follow, Dict.get?_set]
  by_cases h : k = j
  · subst h; simp
  · have : ¬ (Key.s k = Key.s j) := fun e => h (by injection e)
    simp [h, this]

/-- what is in the structure after one key -/
theorem expandAt_spec (v : Val) (p : List Str) (ret : Val) (hc : Clear p ret) :
    ∃ d, expandAt v p ret = .ok (.dict d) ∧
      (∀ q, follow (p ++ q) (.dict d) = follow q v) ∧
      (∀ q, ¬ p <+: q → ¬ q <+: p → follow q (.dict d) = follow q ret) ∧
      (∀ q, q <+: p → q ≠ p → ∃ e, follow q (.dict d) = some (.dict e)) := by
  induction p generalizing ret with
  | nil => cases hc
  | cons k ks ih =>
    cases ret with
    | dict d =>
      cases ks with
      | nil =>
        refine ⟨_, rfl, ?_, ?_, ?_⟩
        · intro q
          rw [List.singleton_append, follow_set, if_pos rfl]
        · intro q h1 h2
          cases q with
          | nil => exact absurd (List.nil_prefix) h2
          | cons j q =>
            rw [follow_set]
            have : k ≠ j := by rintro rfl; exact h1 (by simp)
            rw [if_neg this]
        · intro q h1 h2
          cases q with
          | nil => exact ⟨_, rfl⟩
          | cons j q =>
            exfalso; apply h2
            obtain ⟨rfl, h3⟩ := List.cons_prefix_cons.1 h1
            rw [List.prefix_nil.1 h3]
      | cons k2 ks =>
        have hsub : Clear (k2 :: ks) ((Dict.get? d (.s k)).getD (.dict [])) := by
          cases hg : Dict.get? d (.s k) with
          | none =>
            simp only [Option.getD_none]
            cases ks with
            | nil => trivial
            | cons a b => simp [Clear]
          | some s =>
            simp only [Option.getD_some]
            simp only [Clear, hg] at hc
            exact hc
        obtain ⟨e, h1, h2, h3, h4⟩ := ih _ hsub
        refine ⟨Dict.set d (.s k) (.dict e), ?_, ?_, ?_, ?_⟩
        · rw [expandAt, h1]; rfl
        · intro q
          rw [List.cons_append, follow_set, if_pos rfl]
          exact h2 q
        · intro q h5 h6
          cases q with
          | nil => exact absurd (List.nil_prefix) h6
          | cons j q =>
            rw [follow_set]
            by_cases hj : k = j
            · subst hj
              rw [if_pos rfl]
              have h7 := h3 q (fun h => h5 (List.cons_prefix_cons.2 ⟨rfl, h⟩)) (fun h => h6 (List.cons_prefix_cons.2 ⟨rfl, h⟩))
              rw [h7]
              simp only [follow]
              cases hg : Dict.get? d (.s k) with
              | some s => rfl
              | none =>
                simp only [Option.getD_none, Option.bind_none]
                cases q with
                | nil => exact absurd (List.cons_prefix_cons.2 ⟨rfl, List.nil_prefix⟩) h6
                | cons a b => rfl
            · rw [if_neg hj]
        · intro q h5 h6
          cases q with
          | nil => exact ⟨_, rfl⟩
          | cons j q =>
            obtain ⟨rfl, h7⟩ := List.cons_prefix_cons.1 h5
            obtain ⟨e', he⟩ := h4 q h7 (fun h => h6 (by rw [h]))
            exact ⟨e', by rw [follow_set, if_pos rfl]; exact he⟩
    | none => cases ks <;> cases hc
    | bool _ => cases ks <;> cases hc
    | int _ => cases ks <;> cases hc
    | flt _ => cases ks <;> cases hc
    | str _ => cases ks <;> cases hc
    | list _ => cases ks <;> cases hc

theorem clear_of (p : List Str) (hp : p ≠ []) (ret : Val)
    (h : ∀ q, q <+: p → q ≠ p → ∀ x, follow q ret = some x → ∃ e, x = .dict e) : Clear p ret := by
  induction p generalizing ret with
  | nil => exact absurd rfl hp
  | cons k ks ih =>
    obtain ⟨d, rfl⟩ := h [] List.nil_prefix (by simp) ret rfl
    cases ks with
    | nil => trivial
    | cons k2 ks =>
      simp only [Clear]
      cases hg : Dict.get? d (.s k) with
      | none => trivial
      | some s =>
        refine ih (by simp) s ?_
        intro q h1 h2 x hx
        refine h (k :: q) (List.cons_prefix_cons.2 ⟨rfl, h1⟩) (fun e => h2 (by injection e)) x ?_
        simp only [follow, hg, Option.bind_some, hx]

structure Inv (done : List (Str × Val)) (ret : Val) : Prop where
  dict : ∃ d, ret = .dict d
  there : ∀ kv ∈ done, ∀ q, follow (parts kv.1 ++ q) ret = follow q kv.2
  only : ∀ q x, follow q ret = some x → q = [] ∨ (∃ kv ∈ done, parts kv.1 <+: q) ∨ (∃ kv ∈ done, q <+: parts kv.1 ∧ ∃ e, x = .dict e)

theorem parts_ne_nil (k : Str) : parts k ≠ [] := by
  unfold parts; rw [split_char]; exact splitC_ne_nil '.' k

theorem inv_step (done : List (Str × Val)) (ret : Val) (k : Str) (v : Val) (hi : Inv done ret)
    (h1 : ∀ kv ∈ done, ¬ parts kv.1 <+: parts k) (h2 : ∀ kv ∈ done, ¬ parts k <+: parts kv.1) :
    ∃ ret', expandAt v (parts k) ret = .ok ret' ∧ Inv (done ++ [(k, v)]) ret' := by
  have hc : Clear (parts k) ret := by
    apply clear_of _ (parts_ne_nil k)
    intro q hq hne x hx
    rcases hi.only q x hx with rfl | ⟨kv, hkv, hp⟩ | ⟨kv, _, _, he⟩
    · obtain ⟨d, hd⟩ := hi.dict
      injection hx with hx
      exact ⟨d, hx ▸ hd⟩
    · exact absurd (hp.trans hq) (h1 kv hkv)
    · exact he
  obtain ⟨d, h3, h4, h5, h6⟩ := expandAt_spec v (parts k) ret hc
  refine ⟨.dict d, h3, ⟨d, rfl⟩, ?_, ?_⟩
  · intro kv hkv q
    rcases List.mem_append.1 hkv with hkv | hkv
    · rw [h5, hi.there kv hkv q]
      · intro hp
        rcases List.prefix_or_prefix_of_prefix hp (List.prefix_append (parts kv.1) q) with h | h
        · exact h2 kv hkv h
        · exact h1 kv hkv h
      · intro hp
        exact h1 kv hkv ((List.prefix_append _ _).trans hp)
    · simp only [List.mem_singleton] at hkv
      subst hkv
      exact h4 q
  · intro q x hx
    by_cases hpq : parts k <+: q
    · exact Or.inr (Or.inl ⟨(k, v), by simp, hpq⟩)
    · by_cases hqp : q <+: parts k
      · refine Or.inr (Or.inr ⟨(k, v), by simp, hqp, ?_⟩)
        obtain ⟨e, he⟩ := h6 q hqp (fun e => hpq (e ▸ List.prefix_refl _))
        rw [he] at hx; injection hx with hx
        exact ⟨e, hx.symm⟩
      · rw [h5 q hpq hqp] at hx
        rcases hi.only q x hx with h | ⟨kv, hkv, h⟩ | ⟨kv, hkv, h⟩
        · exact Or.inl h
        · exact Or.inr (Or.inl ⟨kv, List.mem_append_left _ hkv, h⟩)
        · exact Or.inr (Or.inr ⟨kv, List.mem_append_left _ hkv, h⟩)

theorem expandLoop_inv (done todo : List (Str × Val)) (ret : Val) (hi : Inv done ret)
    (hnd : ((done ++ todo).map Prod.fst).Nodup) (hpf : PrefixFree ((done ++ todo).map Prod.fst)) :
    ∃ ret', expandLoop (asDict todo) ret = .ok ret' ∧ Inv (done ++ todo) ret' := by
  induction todo generalizing done ret with
  | nil => exact ⟨ret, rfl, by simpa using hi⟩
  | cons kv todo ih =>
    obtain ⟨k, v⟩ := kv
    have hne : ∀ x ∈ done, x.1 ≠ k := by
      intro x hx e
      simp only [List.map_append, List.map_cons, List.nodup_append] at hnd
      exact hnd.2.2 x.1 (List.mem_map.2 ⟨x, hx, rfl⟩) k (by simp) e
    obtain ⟨r1, h1, h2⟩ := inv_step done ret k v hi
      (fun x hx => hpf x.1 (List.mem_map.2 ⟨x, by simp [hx], rfl⟩) k (by simp) (hne x hx))
      (fun x hx => hpf k (by simp) x.1 (List.mem_map.2 ⟨x, by simp [hx], rfl⟩) (Ne.symm (hne x hx)))
    obtain ⟨r2, h3, h4⟩ := ih (done ++ [(k, v)]) r1 h2 (by simpa using hnd) (by simpa using hpf)
    refine ⟨r2, ?_, by simpa using h4⟩
    show (do expandLoop (asDict todo) (← expandAt v (parts k) ret) : PyM Val) = _
    rw [h1, ok_bind, h3]

theorem expand_inv (kvs : List (Str × Val)) (hnd : (kvs.map Prod.fst).Nodup) (hpf : PrefixFree (kvs.map Prod.fst)) :
    ∃ ret, expand (.dict (asDict kvs)) = .ok ret ∧ Inv kvs ret := by
  have h0 : Inv [] (.dict []) := by
    refine ⟨⟨_, rfl⟩, by simp, ?_⟩
    intro q x hx
    cases q with
    | nil => exact Or.inl rfl
    | cons a b => simp [follow] at hx
  exact expandLoop_inv [] kvs (.dict []) h0 hnd hpf

/-! ## del, items2dict, to_int -/

theorem delete_eq (d : Dict Key Val) (hd : Dict.WF d) (names : List Str) :
    delete (.dict d) (strs names) = .ok (.dict (d.filter (fun kv => decide (kv.1 ∉ names.map Key.s)))) := by
  have er : ∀ (d : Dict Key Val) (k : Key), Dict.WF d → Dict.erase d k = d.filter (fun kv => decide (kv.1 ≠ k)) := by
    intro d k
    induction d with
    | nil => intro _; rfl
    | cons kv d ih =>
      intro hw
      obtain ⟨a, v⟩ := kv
      simp only [Dict.WF, Dict.keys, List.map_cons, List.nodup_cons] at hw
      simp only [Dict.erase, List.filter_cons]
      by_cases h : a = k
      · subst h
        simp only [if_true, ne_eq, not_true, decide_false]
        symm
        simp only [Bool.false_eq_true, if_false]
        rw [List.filter_eq_self]
        intro x hx
        simp only [decide_eq_true_eq]
        intro e
        exact hw.1 (List.mem_map.2 ⟨x, hx, e⟩)
      · simp only [h, if_false, ne_eq, not_false_eq_true, decide_true, if_true, ih hw.2]
  induction names generalizing d with
  | nil =>
    simp only [strs, List.map_nil, delete]
    rw [List.filter_eq_self.2 (by simp)]; rfl
  | cons n names ih =>
    simp only [strs, List.map_cons, delete, inData_str, ok_bind]
    have e : (d.filter (fun kv => decide (kv.1 ∉ Key.s n :: names.map Key.s))) =
        (d.filter (fun kv => decide (kv.1 ≠ Key.s n))).filter (fun kv => decide (kv.1 ∉ names.map Key.s)) := by
      rw [List.filter_filter]
      apply List.filter_congr
      intro x _
      by_cases h1 : x.1 = Key.s n <;> by_cases h2 : x.1 ∈ names.map Key.s <;> simp [h1, h2]
    rw [e]
    cases hv : valueOf d n with
    | none =>
      have : d.filter (fun kv => decide (kv.1 ≠ Key.s n)) = d := by
        rw [List.filter_eq_self]
        intro x hx
        simp only [decide_eq_true_eq]
        intro e
        have := (Dict.get?_eq_none_iff d (.s n)).1 hv
        exact this (e ▸ List.mem_map.2 ⟨x, hx, rfl⟩)
      rw [this]
      simpa using ih d hd
    | some x =>
      simp only [Option.isSome_some, if_true]
      show (do delete (.dict (Dict.erase d (.s n))) (strs names) : PyM Val) = _
      rw [ih _ (Dict.WF_erase d _ hd), er d _ hd]

theorem toIntLoop_keys (F : Floats) (b : Bool) (ks : List Key) (d : Dict Key Val) :
    Dict.keys (toIntLoop F b ks d) = Dict.keys d := by
  induction ks generalizing d with
  | nil => rfl
  | cons k ks ih =>
    rw [toIntLoop]
    cases h : Dict.get? d k with
    | none => exact ih d
    | some v =>
      simp only [ih]
      refine Dict.keys_set_of_mem d k _ ?_
      by_cases hm : k ∈ Dict.keys d
      · exact hm
      · rw [(Dict.get?_eq_none_iff d k).2 hm] at h; cases h

/-- n-fold conversion -/
def times (f : Val → Val) : Nat → Val → Val
  | 0, v => v
  | n + 1, v => times f n (f v)

theorem toIntLoop_get (F : Floats) (b : Bool) (ks : List Key) (d : Dict Key Val) (q : Key) :
    Dict.get? (toIntLoop F b ks d) q = (Dict.get? d q).map (times (toIntVal F b) (ks.count q)) := by
  induction ks generalizing d with
  | nil =>
    show Dict.get? d q = (Dict.get? d q).map (fun v => v)
    cases Dict.get? d q <;> rfl
  | cons k ks ih =>
    rw [toIntLoop, List.count_cons]
    cases h : Dict.get? d k with
    | none =>
      simp only [ih]
      by_cases hk : k = q
      · subst hk; simp [h]
      · simp [hk]
    | some v =>
      simp only [ih, Dict.get?_set]
      by_cases hk : k = q
      · subst hk; simp [h, times]
      · simp [hk]

/-! ## macro -/

theorem macroLoop_append (M : Dict Str (Val → PyM MRes)) (a b : List Str) (data : Val) :
    macroLoop M (a ++ b) data = (do
      let r ← macroLoop M a data
      if r.2 then macroLoop M b r.1 else pure (r.1, false)) := by
  induction a generalizing data with
  | nil => rfl
  | cons m a ih =>
    simp only [List.cons_append, macroLoop]
    cases Dict.get? M m with
    | none => exact ih data
    | some f =>
      simp only
      cases f data with
      | error e => rfl
      | ok r =>
        simp only [ok_bind]
        cases r with
        | tup vs => exact ih _
        | val v =>
          cases v with
          | bool c =>
            cases c with
            | false => rfl
            | true => simp only; split <;> exact ih _
          | _ => simp only; split <;> exact ih _

/-! ## lookup -/

theorem lookupPath_follow (L : Val) (ns : List Str) (t : Val) (h : follow ns L = some t) : lookupPath L ns = .ok t := by
  induction ns generalizing L with
  | nil => simp only [follow, Option.some.injEq] at h; subst h; cases L <;> rfl
  | cons n ns ih =>
    cases L with
    | dict d =>
      simp only [follow] at h
      cases hg : Dict.get? d (.s n) with
      | none => simp [hg] at h
      | some x =>
        simp only [hg, Option.bind_some] at h
        simp only [lookupPath, hg, Option.getD_some]
        exact ih x h
    | _ => simp [follow] at h

theorem lookupNames_join (ns : List Str) (hne : ns ≠ []) (h : ∀ n ∈ ns, Simple n) : lookupNames (join ['.'] ns) = ns := by
  unfold lookupNames
  rw [split_char, splitC_join '.' ns hne (fun w hw => (h w hw).1)]
  rw [List.map_congr_left (g := id) (fun n hn => (h n hn).2)]
  simp

/-! ## itemize -/

theorem rstrip_stars (base : Str) (n : Nat) (hb : base.getLast? ≠ some '*') :
    rstripP (· == '*') (base ++ List.replicate n '*') = base := by
  unfold rstripP
  rw [List.reverse_append, List.reverse_replicate]
  have h1 : ∀ (n : Nat) (l : Str), (List.replicate n '*' ++ l).dropWhile (· == '*') = l.dropWhile (· == '*') := by
    intro n l
    induction n with
    | zero => rfl
    | succ n ih => rw [List.replicate_succ, List.cons_append, List.dropWhile_cons]; simpa using ih
  rw [h1]
  have h2 : base.reverse.dropWhile (· == '*') = base.reverse := by
    rw [← List.head?_reverse] at hb
    cases hr : base.reverse with
    | nil => rfl
    | cons c cs =>
      rw [hr] at hb
      rw [List.dropWhile_cons, if_neg]
      simpa using hb
  rw [h2, List.reverse_reverse]

theorem oneStar_eq (base : Str) (n : Nat) (hb : base.getLast? ≠ some '*') :
    oneStar (base ++ List.replicate n '*') = base ++ ['*'] := by
  unfold oneStar
  rw [rstrip_stars base n hb]
  split
  · rfl
  · rename_i h
    match n, h with
    | 0, h =>
      exfalso; apply h
      simp only [List.replicate_zero, List.append_nil, Bool.or_eq_true, Bool.not_eq_true']
      right
      unfold endsWith
      cases hb2 : List.isSuffixOf ['*'] base with
      | false => rfl
      | true =>
        obtain ⟨t, rfl⟩ := List.isSuffixOf_iff_suffix.1 hb2
        simp at hb
    | 1, _ => rfl
    | n + 2, h =>
      exfalso; apply h
      simp only [Bool.or_eq_true]
      left
      unfold endsWith
      rw [List.isSuffixOf_iff_suffix]
      refine ⟨base ++ List.replicate n '*', ?_⟩
      rw [← List.replicate_append_replicate (n := n) (m := 2), List.append_assoc]; rfl

end GroupFn
end TTP
