import Verif.Proofs.Group
import Verif.Props.Match
import Verif.Spec.Tree
/-!
# C53, C54, C68 - C76: functions of groups

`GroupFn.builtin W f ms data` is the call of one function `f` of a group on the record `data`, as `processgrp` does it: the
result is the new state of the results object, the new record and the flag; the flag `some false` drops the record.
`ms.record.defaults` are the defaults of the group.
-/

namespace Props
open Py Spec TTP TTP.GroupFn
open TTP.MatchFn (pyEq MRes)

/-- `x` is the result of a check: nothing is changed, and the record is kept iff `P` -/
def Decides (W : GroupFn.World) (f : FnCall) (ms : MS) (data : Val) (P : Prop) : Prop :=
  ∃ flag, GroupFn.builtin W f ms data = .ok (ms, data, flag) ∧ (flag ≠ some false ↔ P)

theorem decides_of (W : GroupFn.World) (name : Str) (args : List Val) (ms : MS) (data : Val) (P : Prop)
    (hn : GroupFn.checkNames.contains name = true) (b : Bool) (h : callCheck (fn name args) ms data = .ok b) (hb : b = true ↔ P) :
    Decides W (fn name args) ms data P := by
  refine ⟨if b then none else some false, ?_, ?_⟩
  · unfold GroupFn.builtin
    rw [if_pos (show GroupFn.checkNames.contains (fn name args).name = true from hn), h]
    rfl
  · rw [← hb]; cases b <;> simp

/-! ## C53 -/

/-- C53. `contains` keeps the record iff the first listed variable that is in the record is not at its default. -/
theorem C53_contains (W : GroupFn.World) (ms : MS) (d : Dict Key Val) (names : List Str) :
    Decides W (fn c!"contains" (names.map .str)) ms (.dict d)
      (∃ pre n post, names = pre ++ n :: post ∧ (∀ m ∈ pre, valueOf d m = none) ∧
        ∃ x, valueOf d n = some x ∧ ∀ y, valueOf ms.record.defaults n = some y → pyEq y x = false) := by
  obtain ⟨b, h1, h2⟩ := containsFn_iff ms.record.defaults d names
  refine decides_of W _ _ ms _ _ (by decide) b h1 ?_
  rw [h2]
  constructor
  · rintro ⟨pre, n, post, h3, h4, ⟨x, h5⟩, h6⟩
    refine ⟨pre, n, post, h3, h4, x, h5, fun y hy => ?_⟩
    cases h : pyEq y x
    · rfl
    · exact absurd ⟨x, y, h5, hy, h⟩ h6
  · rintro ⟨pre, n, post, h3, h4, x, h5, h6⟩
    refine ⟨pre, n, post, h3, h4, ⟨x, h5⟩, ?_⟩
    rintro ⟨x', y, h7, h8, h9⟩
    rw [h5] at h7; injection h7 with h7; subst h7
    rw [h6 y h8] at h9; cases h9

/-- C53. `containsall` keeps the record iff every listed variable is in the record and not at its default. -/
theorem C53_containsall (W : GroupFn.World) (ms : MS) (d : Dict Key Val) (names : List Str) :
    Decides W (fn c!"containsall" (names.map .str)) ms (.dict d)
      (∀ n ∈ names, ∃ x, valueOf d n = some x ∧ ∀ y, valueOf ms.record.defaults n = some y → pyEq y x = false) := by
  obtain ⟨b, h1, h2⟩ := containsall_iff ms.record.defaults d names
  refine decides_of W _ _ ms _ _ (by decide) b h1 ?_
  rw [h2]
  refine forall_congr' fun n => imp_congr_right fun _ => ?_
  constructor
  · rintro ⟨⟨x, h5⟩, h6⟩
    refine ⟨x, h5, fun y hy => ?_⟩
    cases h : pyEq y x
    · rfl
    · exact absurd ⟨x, y, h5, hy, h⟩ h6
  · rintro ⟨x, h5, h6⟩
    refine ⟨⟨x, h5⟩, ?_⟩
    rintro ⟨x', y, h7, h8, h9⟩
    rw [h5] at h7; injection h7 with h7; subst h7
    rw [h6 y h8] at h9; cases h9

/-- C53. `exclude` drops the record iff a listed variable without default is in the record. -/
theorem C53_exclude (W : GroupFn.World) (ms : MS) (d : Dict Key Val) (names : List Str) :
    Decides W (fn c!"exclude" (names.map .str)) ms (.dict d)
      (¬ ∃ n ∈ names, valueOf d n ≠ none ∧ valueOf ms.record.defaults n = none) := by
  obtain ⟨b, h1, h2⟩ := excludeFn_iff ms.record.defaults d names
  refine decides_of W _ _ ms _ _ (by decide) b h1 ?_
  simp only [← Option.isSome_iff_exists, Option.isSome_iff_ne_none] at h2
  rw [← h2]; simp

/-- C53. `excludeall` drops the record iff all listed variables are in the record and have no default. -/
theorem C53_excludeall (W : GroupFn.World) (ms : MS) (d : Dict Key Val) (names : List Str) :
    Decides W (fn c!"excludeall" (names.map .str)) ms (.dict d)
      (¬ ∀ n ∈ names, valueOf d n ≠ none ∧ valueOf ms.record.defaults n = none) := by
  obtain ⟨b, h1, h2⟩ := excludeall_iff ms.record.defaults d names
  refine decides_of W _ _ ms _ _ (by decide) b h1 ?_
  simp only [← Option.isSome_iff_exists, Option.isSome_iff_ne_none] at h2
  rw [← h2]; simp

/-! ## C68 -/

/-- C68, the part that holds. If no listed variable has a default, `contains` keeps the record iff at least one of the listed
variables matched. -/
theorem C68_contains_any_partial (W : GroupFn.World) (ms : MS) (d : Dict Key Val) (names : List Str)
    (hD : ∀ n ∈ names, valueOf ms.record.defaults n = none) :
    Decides W (fn c!"contains" (names.map .str)) ms (.dict d) (∃ n ∈ names, valueOf d n ≠ none) := by
  obtain ⟨flag, h1, h2⟩ := C53_contains W ms d names
  refine ⟨flag, h1, h2.trans ?_⟩
  constructor
  · rintro ⟨pre, n, post, rfl, _, x, hx, _⟩
    exact ⟨n, by simp, by simp [hx]⟩
  · intro h
    clear h1 h2
    induction names with
    | nil => obtain ⟨n, hn, _⟩ := h; cases hn
    | cons m names ih =>
      cases hm : valueOf d m with
      | some x =>
        refine ⟨[], m, names, rfl, by simp, x, hm, fun y hy => ?_⟩
        rw [hD m (by simp)] at hy; cases hy
      | none =>
        have : ∃ n ∈ names, valueOf d n ≠ none := by
          obtain ⟨n, hn, hx⟩ := h
          rcases List.mem_cons.1 hn with rfl | hn
          · exact absurd hm hx
          · exact ⟨n, hn, hx⟩
        obtain ⟨pre, n, post, h3, h4, h5⟩ := ih (fun n hn => hD n (by simp [hn])) this
        refine ⟨m :: pre, n, post, by rw [h3]; rfl, ?_, h5⟩
        intro k hk
        rcases List.mem_cons.1 hk with rfl | hk
        · exact hm
        · exact h4 k hk

/-- defaults and record for the examples: `a` has the default `no`, `b` has none -/
def Ex.msD (defaults : Dict Key Val) : MS := ⟨.dict [], [], [], ⟨[], [c!"g*"], [], defaults, none, false⟩, [], [], []⟩

/-- C68, what does not hold: with a default for the first variable, `contains` drops a record although the second variable
matched; the same variables in another order keep it. -/
theorem C68_contains_order_matters (W : GroupFn.World) :
    let ms := Ex.msD [(.s c!"a", .str c!"no")]
    let d : Val := .dict [(.s c!"a", .str c!"no"), (.s c!"b", .str c!"matched")]
    GroupFn.builtin W (fn c!"contains" [.str c!"a", .str c!"b"]) ms d = .ok (ms, d, some false) ∧
    GroupFn.builtin W (fn c!"contains" [.str c!"b", .str c!"a"]) ms d = .ok (ms, d, none) := ⟨rfl, rfl⟩

/-- C68, what does not hold: `exclude` keeps a record in which the variable matched a value, if the variable has a default. -/
theorem C68_exclude_ignores_defaulted (W : GroupFn.World) :
    let ms := Ex.msD [(.s c!"a", .str c!"no")]
    let d : Val := .dict [(.s c!"a", .str c!"matched")]
    GroupFn.builtin W (fn c!"exclude" [.str c!"a"]) ms d = .ok (ms, d, none) := rfl

/-- the conditions of C68 can be met: the second of two variables matched, another variable has a default -/
example (W : GroupFn.World) : Decides W (fn c!"contains" [.str c!"x", .str c!"b"]) (Ex.msD [(.s c!"a", .str c!"no")])
    (.dict [(.s c!"a", .str c!"no"), (.s c!"b", .str c!"1")]) True := by
  obtain ⟨f, h1, h2⟩ := C68_contains_any_partial W (Ex.msD [(.s c!"a", .str c!"no")]) [(.s c!"a", .str c!"no"), (.s c!"b", .str c!"1")]
    [c!"x", c!"b"] (by decide)
  exact ⟨f, h1, h2.trans ⟨fun _ => trivial, fun _ => ⟨c!"b", by decide, by decide⟩⟩⟩

/-! ## C54 -/

theorem data_builtin (W : GroupFn.World) (f : FnCall) (ms : MS) (data : Val) (h1 : GroupFn.checkNames.contains f.name = false)
    (h2 : dataNames.contains f.name = true) :
    GroupFn.builtin W f ms data = (do
      let r ← callData W f ms data
      pure (ms, r.1, if r.2 then none else some false)) := by
  unfold GroupFn.builtin
  rw [if_neg (by rw [h1]; simp), if_pos h2]

/-- C54. If no name is the beginning of another, then after `expand` the parts of every name lead to its value, and everything
in the result is part of such a value or a dictionary on the way to one. -/
theorem C54_expand (W : GroupFn.World) (ms : MS) (kvs : List (Str × Val)) (hnd : (kvs.map Prod.fst).Nodup)
    (hpf : PrefixFree (kvs.map Prod.fst)) :
    ∃ d, GroupFn.builtin W (fn c!"expand" []) ms (.dict (asDict kvs)) = .ok (ms, .dict d, none) ∧
      (∀ kv ∈ kvs, follow (parts kv.1) (.dict d) = some kv.2) ∧
      (∀ q x, q ≠ [] → follow q (.dict d) = some x →
        (∃ kv ∈ kvs, ∃ r, q = parts kv.1 ++ r ∧ follow r kv.2 = some x) ∨
        (∃ kv ∈ kvs, ∃ r, parts kv.1 = q ++ r ∧ ∃ e, x = .dict e)) := by
  obtain ⟨ret, h1, hi⟩ := expand_inv kvs hnd hpf
  obtain ⟨d, rfl⟩ := hi.dict
  refine ⟨d, ?_, ?_, ?_⟩
  · rw [data_builtin W _ ms _ (by rfl) (by rfl)]
    show (do let r ← (do pure (← GroupFn.expand (.dict (asDict kvs)), true) : PyM (Val × Bool)); pure (ms, r.1, if r.2 then none else some false) : PyM _) = _
    rw [h1]; rfl
  · intro kv hkv
    have := hi.there kv hkv []
    simpa [follow] using this
  · intro q x hq hx
    rcases hi.only q x hx with h | ⟨kv, hkv, r, rfl⟩ | ⟨kv, hkv, ⟨r, hr⟩, he⟩
    · exact absurd h hq
    · exact Or.inl ⟨kv, hkv, r, rfl, by rw [← hi.there kv hkv r]; exact hx⟩
    · exact Or.inr ⟨kv, hkv, r, hr.symm, he⟩

example : (([(c!"a.b", .str c!"1"), (c!"a.c.d", .str c!"2"), (c!"e", .list [])] : List (Str × Val)).map Prod.fst).Nodup ∧
    PrefixFree (([(c!"a.b", .str c!"1"), (c!"a.c.d", .str c!"2"), (c!"e", .list [])] : List (Str × Val)).map Prod.fst) := by
  refine ⟨by decide, ?_⟩
  unfold PrefixFree
  decide

/-- What `expand` does otherwise: a value below a plain value is lost, two levels below it raise an exception, and the order of
the variables decides. -/
theorem C54_expand_conflicts (W : GroupFn.World) (ms : MS) :
    GroupFn.builtin W (fn c!"expand" []) ms (.dict (asDict [(c!"a", .str c!"1"), (c!"a.b", .str c!"2")])) =
      .ok (ms, .dict (asDict [(c!"a", .str c!"1")]), none) ∧
    GroupFn.builtin W (fn c!"expand" []) ms (.dict (asDict [(c!"a.b", .str c!"2"), (c!"a", .str c!"1")])) =
      .ok (ms, .dict (asDict [(c!"a", .str c!"1")]), none) ∧
    GroupFn.builtin W (fn c!"expand" []) ms (.dict (asDict [(c!"a", .str c!"1"), (c!"a.b.c", .str c!"2")])) =
      .error .attributeError := ⟨rfl, rfl, rfl⟩

/-! ## C69 -/

/-- C69. `record(source, target)` keeps the record and changes only the variable `target`, of the template and of all
templates; afterwards `set(target, name)` puts the recorded value under `name` into any record, in the same results object or
in any other one that sees the same variables or (if the name is not used there) the same global variables. -/
theorem C69_record_then_set (W : GroupFn.World) (ms : MS) (d : Dict Key Val) (source target : Str) (v : Val)
    (hs : valueOf d source = some v) (ht : target ≠ c!"_use_source_") :
    ∃ ms', GroupFn.builtin W (fn c!"record" [.str source, .str target]) ms (.dict d) = .ok (ms', .dict d, none) ∧
      (∀ q, q ≠ target → Dict.get? ms'.vars q = Dict.get? ms.vars q ∧ Dict.get? ms'.gvars q = Dict.get? ms.gvars q) ∧
      ms' = { ms with vars := ms'.vars, gvars := ms'.gvars } ∧
      ∀ (ms2 : MS) (d2 : Dict Key Val) (name : Str), name ≠ c!"_use_source_" →
        (ms2.vars = ms'.vars ∨ (Dict.get? ms2.vars target = none ∧ ms2.gvars = ms'.gvars)) →
        GroupFn.builtin W (fn c!"set" [.str target, .str name]) ms2 (.dict d2) = .ok (ms2, .dict (Dict.set d2 (.s name) v), none) := by
  refine ⟨{ ms with vars := Dict.set ms.vars target v, gvars := Dict.set ms.gvars target v }, ?_, ?_, rfl, ?_⟩
  · have e : GroupFn.builtin W (fn c!"record" [.str source, .str target]) ms (.dict d) =
        (do pure (← GroupFn.record ms (.dict d) (.str source) (some (.str target)), .dict d, none) : PyM _) := rfl
    rw [e]
    have : GroupFn.record ms (.dict d) (.str source) (some (.str target)) =
        .ok { ms with vars := Dict.set ms.vars target v, gvars := Dict.set ms.gvars target v } := by
      unfold GroupFn.record
      rw [inData_str, ok_bind, hs]
      simp only [Option.isSome_some, if_true, getItem_str d source v hs, ok_bind]
      have : ¬ (Val.str target = Val.str c!"_use_source_") := fun e => ht (by injection e)
      rw [if_neg this]
      rfl
    rw [this]; rfl
  · intro q hq
    exact ⟨Dict.get?_set_ne _ _ (Ne.symm hq), Dict.get?_set_ne _ _ (Ne.symm hq)⟩
  · intro ms2 d2 name hn h
    rw [data_builtin W _ ms2 _ (by rfl) (by rfl)]
    have hval : GroupFn.setValue ms2 (.str target) none = v := by
      unfold GroupFn.setValue
      rcases h with h | ⟨h, h'⟩
      · simp only [h, Dict.get?_set_self]
      · simp only [h, h', Dict.get?_set_self]
    have hset : GroupFn.setFn ms2 (.dict d2) (.str target) (some (.str name)) none = .ok (.dict (Dict.set d2 (.s name) v)) := by
      unfold GroupFn.setFn
      have : ¬ (Val.str name = Val.str c!"_use_source_") := fun e => hn (by injection e)
      simp only [if_neg this, hval]
      rfl
    show (do let r ← (do pure (← GroupFn.setFn ms2 (.dict d2) (.str target) (some (.str name)) none, true) : PyM (Val × Bool)); pure (ms2, r.1, if r.2 then none else some false) : PyM _) = _
    rw [hset]; rfl

/-- C69. `record` of a variable that did not match changes nothing. -/
theorem C69_record_absent (W : GroupFn.World) (ms : MS) (d : Dict Key Val) (source target : Str) (hs : valueOf d source = none) :
    GroupFn.builtin W (fn c!"record" [.str source, .str target]) ms (.dict d) = .ok (ms, .dict d, none) := by
  have e : GroupFn.builtin W (fn c!"record" [.str source, .str target]) ms (.dict d) =
      (do pure (← GroupFn.record ms (.dict d) (.str source) (some (.str target)), .dict d, none) : PyM _) := rfl
  rw [e]
  unfold GroupFn.record
  rw [inData_str, ok_bind, hs]
  rfl

/-- C69. `set` of a name that is no variable puts the default, or without default the name itself. -/
theorem C69_set_unknown (W : GroupFn.World) (ms : MS) (d : Dict Key Val) (source name : Str) (dflt : Val)
    (h1 : Dict.get? ms.vars source = none) (h2 : Dict.get? ms.gvars source = none) (hn : name ≠ c!"_use_source_")
    (hd : dflt ≠ .str c!"_no_default_value_") :
    GroupFn.builtin W (fn c!"set" [.str source, .str name, dflt]) ms (.dict d) = .ok (ms, .dict (Dict.set d (.s name) dflt), none) ∧
    GroupFn.builtin W (fn c!"set" [.str source, .str name]) ms (.dict d) =
      .ok (ms, .dict (Dict.set d (.s name) (.str source)), none) := by
  have hne : ¬ (Val.str name = Val.str c!"_use_source_") := fun e => hn (by injection e)
  constructor
  · rw [data_builtin W _ ms _ (by rfl) (by rfl)]
    have hset : GroupFn.setFn ms (.dict d) (.str source) (some (.str name)) (some dflt) = .ok (.dict (Dict.set d (.s name) dflt)) := by
      unfold GroupFn.setFn GroupFn.setValue
      simp only [if_neg hne, h1, h2, if_neg hd]
      rfl
    show (do let r ← (do pure (← GroupFn.setFn ms (.dict d) (.str source) (some (.str name)) (some dflt), true) : PyM (Val × Bool)); pure (ms, r.1, if r.2 then none else some false) : PyM _) = _
    rw [hset]; rfl
  · rw [data_builtin W _ ms _ (by rfl) (by rfl)]
    have hset : GroupFn.setFn ms (.dict d) (.str source) (some (.str name)) none = .ok (.dict (Dict.set d (.s name) (.str source))) := by
      unfold GroupFn.setFn GroupFn.setValue
      simp only [if_neg hne, h1, h2]
      rfl
    show (do let r ← (do pure (← GroupFn.setFn ms (.dict d) (.str source) (some (.str name)) none, true) : PyM (Val × Bool)); pure (ms, r.1, if r.2 then none else some false) : PyM _) = _
    rw [hset]; rfl

example : valueOf [(.s c!"hostname", .str c!"R1")] c!"hostname" = some (.str c!"R1") ∧ c!"host" ≠ c!"_use_source_" := by decide

/-! ## C70 -/

/-- C70. `del` removes exactly the listed variables and keeps all others, with their values and in their order. -/
theorem C70_del (W : GroupFn.World) (ms : MS) (d : Dict Key Val) (hd : Dict.WF d) (names : List Str) :
    GroupFn.builtin W (fn c!"del" (names.map .str)) ms (.dict d) =
      .ok (ms, .dict (d.filter (fun kv => decide (kv.1 ∉ names.map Key.s))), none) := by
  rw [data_builtin W _ ms _ (by rfl) (by rfl)]
  show (do let r ← (do pure (← GroupFn.delete (.dict d) (strs names), true) : PyM (Val × Bool)); pure (ms, r.1, if r.2 then none else some false) : PyM _) = _
  rw [delete_eq d hd names]; rfl

example (W : GroupFn.World) (ms : MS) : GroupFn.builtin W (fn c!"del" [.str c!"b", .str c!"x"]) ms
    (.dict (asDict [(c!"a", .str c!"1"), (c!"b", .str c!"2"), (c!"c", .str c!"3")])) =
    .ok (ms, .dict (asDict [(c!"a", .str c!"1"), (c!"c", .str c!"3")]), none) :=
  C70_del W ms _ (by unfold Dict.WF; decide) [c!"b", c!"x"]

/-! ## C71 -/

/-- C71. `to_int` with different names keeps all variables in their order, leaves the ones that are not listed as they are,
and turns the listed strings into the number they denote: an integer if `int()` takes them, otherwise a float if `float()`
takes them; other strings, lists and dictionaries stay as they are. -/
theorem C71_to_int (W : GroupFn.World) (ms : MS) (d : Dict Key Val) (names : List Str) (hne : names ≠ []) (hnd : names.Nodup) :
    ∃ e, GroupFn.builtin W (fn c!"to_int" (names.map .str)) ms (.dict d) = .ok (ms, .dict e, none) ∧
      Dict.keys e = Dict.keys d ∧
      (∀ k, k ∉ names.map Key.s → Dict.get? e k = Dict.get? d k) ∧
      ∀ n ∈ names,
        (valueOf d n = none → valueOf e n = none) ∧
        (∀ s i, valueOf d n = some (.str s) → intOfStr s = some i → valueOf e n = some (.int i)) ∧
        (∀ s t, valueOf d n = some (.str s) → intOfStr s = none → W.floats.ofStr s = some t → valueOf e n = some (.flt t)) ∧
        (∀ s, valueOf d n = some (.str s) → intOfStr s = none → W.floats.ofStr s = none → valueOf e n = some (.str s)) ∧
        (∀ i, valueOf d n = some (.int i) → valueOf e n = some (.int i)) ∧
        (∀ xs, valueOf d n = some (.list xs) → valueOf e n = some (.list xs)) ∧
        (∀ x, valueOf d n = some (.dict x) → valueOf e n = some (.dict x)) := by
  have hks : asKeys (names.map Val.str) = .ok (names.map Key.s) := by
    clear hne hnd
    induction names with
    | nil => rfl
    | cons n ns ih =>
      rw [List.map_cons, asKeys, ih]; rfl
  have hne' : (names.map Key.s).isEmpty = false := by
    cases names with
    | nil => exact absurd rfl hne
    | cons a b => rfl
  refine ⟨toIntLoop W.floats false (names.map Key.s) d, ?_, toIntLoop_keys _ _ _ _, ?_, ?_⟩
  · rw [data_builtin W _ ms _ (by rfl) (by rfl)]
    have h : GroupFn.toInt W.floats (.dict d) (names.map Val.str) false = .ok (.dict (toIntLoop W.floats false (names.map Key.s) d)) := by
      unfold GroupFn.toInt
      simp only [hks, ok_bind, hne']
      rfl
    show (do let r ← (do pure (← GroupFn.toInt W.floats (.dict d) (names.map Val.str) false, true) : PyM (Val × Bool)); pure (ms, r.1, if r.2 then none else some false) : PyM _) = _
    rw [h]; rfl
  · intro k hk
    rw [toIntLoop_get, List.count_eq_zero.2 hk]
    cases Dict.get? d k <;> rfl
  · intro n hn
    have hc : (names.map Key.s).count (Key.s n) = 1 := by
      have hnd2 : (names.map Key.s).Nodup := by
        unfold List.Nodup
        rw [List.pairwise_map]
        exact hnd.imp (fun h e => h (by injection e))
      have h1 := List.nodup_iff_count.1 hnd2 (Key.s n)
      have h2 := List.count_pos_iff.2 (List.mem_map.2 ⟨n, hn, rfl⟩ : Key.s n ∈ names.map Key.s)
      omega
    have key : valueOf (toIntLoop W.floats false (names.map Key.s) d) n = (valueOf d n).map (toIntVal W.floats false) := by
      unfold valueOf
      rw [toIntLoop_get, hc]; rfl
    rw [key]
    refine ⟨?_, ?_, ?_, ?_, ?_, ?_, ?_⟩
    · intro h; rw [h]; rfl
    · intro s i h h1; rw [h]; simp [toIntVal, toNum, h1]
    · intro s t h h1 h2; rw [h]; simp [toIntVal, toNum, h1, h2]
    · intro s h h1 h2; rw [h]; simp [toIntVal, toNum, h1, h2]
    · intro i h; rw [h]; rfl
    · intro i h; rw [h]; rfl
    · intro i h; rw [h]; rfl

theorem toNum_numbered (F : GroupFn.Floats) (v : Val) : Numbered F.ofStr F.trunc v (toNum F v) := by
  cases v with
  | str s =>
    cases h : intOfStr s with
    | some i => simp only [toNum, h]; exact .int s i h
    | none =>
      cases h2 : F.ofStr s with
      | some t => simp only [toNum, h, h2]; exact .float s t h h2
      | none => simp only [toNum, h, h2]; exact .text s h h2
  | flt t =>
    cases h : F.trunc t with
    | some i => simp only [toNum, h]; exact .cut t i h
    | none => simp only [toNum, h]; exact .keep t h
  | bool b => cases b <;> constructor
  | none => exact .same _ (by simp) (by simp) (by simp)
  | int i => exact .same _ (by simp) (by simp) (by simp)
  | list xs => exact .same _ (by simp) (by simp) (by simp)
  | dict x => exact .same _ (by simp) (by simp) (by simp)

/-- C71. `to_int` without names converts all variables; with `intlist=True` the members of lists are converted too, without
it lists stay as they are. -/
theorem C71_to_int_all (W : GroupFn.World) (ms : MS) (d : Dict Key Val) (hd : Dict.WF d) (intlist : Bool) :
    ∃ e, GroupFn.builtin W ⟨c!"to_int", [], [(c!"intlist", .bool intlist)]⟩ ms (.dict d) = .ok (ms, .dict e, none) ∧
      Dict.keys e = Dict.keys d ∧
      ∀ k v, Dict.get? d k = some v → ∃ w, Dict.get? e k = some w ∧
        ((∀ xs, v ≠ .list xs) → Numbered W.floats.ofStr W.floats.trunc v w) ∧
        (∀ xs, v = .list xs → intlist = false → w = .list xs) ∧
        (∀ xs, v = .list xs → intlist = true → ∃ ys, w = .list ys ∧ All2 (Numbered W.floats.ofStr W.floats.trunc) xs ys) := by
  refine ⟨toIntLoop W.floats intlist (Dict.keys d) d, ?_, toIntLoop_keys _ _ _ _, ?_⟩
  · rw [data_builtin W _ ms _ (by rfl) (by rfl)]
    cases intlist <;> rfl
  · intro k v hv
    have hc : (Dict.keys d).count k = 1 := by
      have h1 := List.nodup_iff_count.1 hd k
      have h2 : k ∈ Dict.keys d := List.mem_map.2 ⟨(k, v), Dict.mem_of_get? _ _ _ hv, rfl⟩
      have := List.count_pos_iff.2 h2
      omega
    refine ⟨toIntVal W.floats intlist v, by rw [toIntLoop_get, hc, hv]; rfl, ?_, ?_, ?_⟩
    · intro hl
      have hn := toNum_numbered W.floats v
      have : ∀ xs, toNum W.floats v ≠ .list xs := by
        intro xs hx
        rw [hx] at hn
        cases hn with
        | same _ _ _ _ => exact hl xs rfl
      unfold toIntVal
      split
      · next xs hx => exact absurd hx (this xs)
      · exact hn
    · rintro xs rfl rfl; rfl
    · rintro xs rfl rfl
      refine ⟨xs.map (toNum W.floats), rfl, ?_⟩
      clear hv hc
      induction xs with
      | nil => exact .nil
      | cons x xs ih => exact .cons (toNum_numbered _ _) ih

example (W : GroupFn.World) (ms : MS) : ∃ e, GroupFn.builtin W ⟨c!"to_int", [], [(c!"intlist", .bool true)]⟩ ms
    (.dict (asDict [(c!"a", .str c!"12"), (c!"b", .list [.str c!"3"])])) = .ok (ms, .dict e, none) ∧
    valueOf e c!"a" = some (.int 12) ∧ valueOf e c!"b" = some (.list [.int 3]) := ⟨_, rfl, rfl, rfl⟩

/-- C71, what does not hold: `to_int` run twice is not `to_int` run once - text of a fractional number becomes a float first,
and then loses its fraction (`F` behaves like Python on "1.5"). Listing a name twice does the same at once. -/
theorem C71_to_int_twice_truncates (W : GroupFn.World) (ms : MS) (h1 : W.floats.ofStr c!"1.5" = some c!"1.5")
    (h2 : W.floats.trunc c!"1.5" = some 1) :
    GroupFn.builtin W (fn c!"to_int" [.str c!"v"]) ms (.dict (asDict [(c!"v", .str c!"1.5")])) =
      .ok (ms, .dict (asDict [(c!"v", .flt c!"1.5")]), none) ∧
    GroupFn.builtin W (fn c!"to_int" [.str c!"v"]) ms (.dict (asDict [(c!"v", .flt c!"1.5")])) =
      .ok (ms, .dict (asDict [(c!"v", .int 1)]), none) := by
  have hi : intOfStr c!"1.5" = none := by decide
  have e1 : toIntVal W.floats false (.str c!"1.5") = .flt c!"1.5" := by simp [toIntVal, toNum, hi, h1]
  have e2 : toIntVal W.floats false (.flt c!"1.5") = .int 1 := by simp [toIntVal, toNum, h2]
  constructor
  · show Except.ok (ms, Val.dict [(Key.s c!"v", toIntVal W.floats false (.str c!"1.5"))], none) = _
    rw [e1]; rfl
  · show Except.ok (ms, Val.dict [(Key.s c!"v", toIntVal W.floats false (.flt c!"1.5"))], none) = _
    rw [e2]; rfl

/-! ## C72 -/

/-- C72. `items2dict(key, value)` drops a record without both variables; otherwise it replaces the two variables by one, whose
name is the value of `key` and whose value is the value of `value`; everything else is kept. -/
theorem C72_items2dict (W : GroupFn.World) (ms : MS) (d : Dict Key Val) (hd : Dict.WF d) (kn vn : Str) (hne : kn ≠ vn) :
    ((valueOf d kn = none ∨ valueOf d vn = none) →
      GroupFn.builtin W (fn c!"items2dict" [.str kn, .str vn]) ms (.dict d) = .ok (ms, .dict d, some false)) ∧
    (∀ x v, valueOf d kn = some (.str x) → valueOf d vn = some v →
      ∃ e, GroupFn.builtin W (fn c!"items2dict" [.str kn, .str vn]) ms (.dict d) = .ok (ms, .dict e, none) ∧
        valueOf e x = some v ∧ (∀ n, n ≠ x → (n = kn ∨ n = vn) → valueOf e n = none) ∧
        (∀ k, k ≠ Key.s x → k ≠ Key.s kn → k ≠ Key.s vn → Dict.get? e k = Dict.get? d k)) := by
  have hb : GroupFn.builtin W (fn c!"items2dict" [.str kn, .str vn]) ms (.dict d) = (do
      let r ← (do
        match ← GroupFn.items2dict (.dict d) (.str kn) (.str vn) with
        | some v => pure (v, true)
        | none => pure (.dict d, false) : PyM (Val × Bool))
      pure (ms, r.1, if r.2 then none else some false)) := by
    rw [data_builtin W _ ms _ (by rfl) (by rfl)]; rfl
  have hkey : Key.s kn ≠ Key.s vn := fun e => hne (by injection e)
  constructor
  · intro h
    have : GroupFn.items2dict (.dict d) (.str kn) (.str vn) = .ok none := by
      unfold GroupFn.items2dict
      simp only [inData_str, ok_bind]
      rcases h with h | h
      · rw [h]; rfl
      · rw [h]; simp
    rw [hb, this]; rfl
  · intro x v hk hv
    refine ⟨Dict.set (Dict.erase (Dict.erase d (.s vn)) (.s kn)) (.s x) v, ?_, ?_, ?_, ?_⟩
    · have hk2 : Dict.get? (Dict.erase d (.s vn)) (.s kn) = some (.str x) := by
        rw [Dict.get?_erase d _ hd]
        rw [if_neg (Ne.symm hkey)]
        exact hk
      have : GroupFn.items2dict (.dict d) (.str kn) (.str vn) =
          .ok (some (.dict (Dict.set (Dict.erase (Dict.erase d (.s vn)) (.s kn)) (.s x) v))) := by
        unfold GroupFn.items2dict
        simp only [inData_str, ok_bind, hk, hv]
        have hv' : Dict.get? d (.s vn) = some v := hv
        show (match Dict.get? d (.s vn) with | none => _ | some v => _ : PyM _) = _
        rw [hv']
        show (match Dict.get? (Dict.erase d (.s vn)) (.s kn) with | none => _ | some k => _ : PyM _) = _
        rw [hk2]; rfl
      rw [hb, this]; rfl
    · exact Dict.get?_set_self _ _ _
    · intro n hn h
      unfold valueOf
      have hx : Key.s x ≠ Key.s n := fun e => hn (by injection e with e; exact e.symm)
      rw [Dict.get?_set_ne _ _ hx, Dict.get?_erase _ _ (Dict.WF_erase d _ hd), Dict.get?_erase d _ hd]
      rcases h with rfl | rfl <;> simp
    · intro k h1 h2 h3
      rw [Dict.get?_set_ne _ _ (Ne.symm h1), Dict.get?_erase _ _ (Dict.WF_erase d _ hd), Dict.get?_erase d _ hd]
      simp [Ne.symm h2, Ne.symm h3]

/-- C72, what does not hold: the same variable as key and value raises an exception. -/
theorem C72_items2dict_same (W : GroupFn.World) (ms : MS) :
    GroupFn.builtin W (fn c!"items2dict" [.str c!"a", .str c!"a"]) ms (.dict (asDict [(c!"a", .str c!"1")])) = .error .keyError := rfl

example : Dict.WF (asDict [(c!"k", .str c!"mtu"), (c!"v", .str c!"1500"), (c!"x", .str c!"1")]) ∧
    valueOf (asDict [(c!"k", .str c!"mtu"), (c!"v", .str c!"1500"), (c!"x", .str c!"1")]) c!"k" = some (.str c!"mtu") := by unfold Dict.WF; decide

/-! ## C73 -/

/-- C73. `lookup` in a table found under its dotted name: a record whose variable is missing or has no entry is unchanged;
otherwise the value is replaced by the entry, or the entry is put under the name given by `add_field`, or (`update`) the
fields of the entry are added. -/
theorem C73_group_lookup (W : GroupFn.World) (ms : MS) (d t : Dict Key Val) (key : Str) (ns : List Str) (hns : ns ≠ [])
    (hs : ∀ n ∈ ns, Simple n) (hname : join ['.'] ns ≠ []) (ht : follow ns W.lookups = some (.dict t)) (extra : Dict Str Val)
    (he : extra = [] ∨ (∃ f : Str, f ≠ [] ∧ extra = [(c!"add_field", .str f)]) ∨ extra = [(c!"update", .bool true)]) :
    let call : FnCall := ⟨c!"lookup", [.str key], (c!"name", .str (join ['.'] ns)) :: extra⟩
    ((valueOf d key = none ∨ ∃ x, valueOf d key = some (.str x) ∧ valueOf t x = none) →
      GroupFn.builtin W call ms (.dict d) = .ok (ms, .dict d, none)) ∧
    (∀ x v, valueOf d key = some (.str x) → valueOf t x = some v →
      (extra = [] → GroupFn.builtin W call ms (.dict d) = .ok (ms, .dict (Dict.set d (.s key) v), none)) ∧
      (∀ f : Str, extra = [(c!"add_field", .str f)] → GroupFn.builtin W call ms (.dict d) = .ok (ms, .dict (Dict.set d (.s f) v), none)) ∧
      (∀ fs, extra = [(c!"update", .bool true)] → v = .dict fs → GroupFn.builtin W call ms (.dict d) = .ok (ms, .dict (Dict.update d fs), none))) := by
  intro call
  obtain ⟨c, cs, hj⟩ : ∃ c cs, join ['.'] ns = c :: cs := by
    cases h : join ['.'] ns with
    | nil => exact absurd h hname
    | cons c cs => exact ⟨c, cs, rfl⟩
  have hp : MatchFn.lookupPath W.lookups (MatchFn.lookupNames (c :: cs)) = .ok (.dict t) := by
    rw [← hj, lookupNames_join ns hns hs]; exact lookupPath_follow _ _ _ ht
  have base : ∀ (af up : Val), (valueOf d key = none ∨ ∃ x, valueOf d key = some (.str x) ∧ valueOf t x = none) →
      GroupFn.lookup W.lookups (c :: cs) (.dict d) (.str key) af (.bool true) up = .ok (.dict d) := by
    intro af up h
    unfold GroupFn.lookup GroupFn.lookupFrom
    rw [hp, ok_bind]
    show (match Dict.get? d (.s key) with | none => _ | some v => _ : PyM _) = _
    rcases h with h | ⟨x, h, h'⟩
    · unfold valueOf at h; rw [h]; rfl
    · unfold valueOf at h h'; rw [h]
      show (match Dict.get? t (.s x) with | none => _ | some v => _ : PyM _) = _
      rw [h']; rfl
  have hit : ∀ (af up : Val) x v, valueOf d key = some (.str x) → valueOf t x = some v →
      GroupFn.lookup W.lookups (c :: cs) (.dict d) (.str key) af (.bool true) up =
        (do pure (.dict (← lookupUse d (.str key) v af (.bool true) up))) := by
    intro af up x v h h'
    unfold GroupFn.lookup GroupFn.lookupFrom
    rw [hp, ok_bind]
    show (match Dict.get? d (.s key) with | none => _ | some v => _ : PyM _) = _
    unfold valueOf at h h'; rw [h]
    show (match Dict.get? t (.s x) with | none => _ | some v => _ : PyM _) = _
    rw [h']
  have hcall : ∃ af up, GroupFn.builtin W call ms (.dict d) = (do
        let v ← GroupFn.lookup W.lookups (c :: cs) (.dict d) (.str key) af (.bool true) up
        pure (ms, v, none)) ∧ (extra = [] → af = .bool false ∧ up = .bool false) ∧
        (∀ f : Str, extra = [(c!"add_field", .str f)] → f ≠ [] ∧ af = .str f ∧ up = .bool false) ∧
        (extra = [(c!"update", .bool true)] → af = .bool false ∧ up = .bool true) := by
    rcases he with rfl | ⟨f, hf, rfl⟩ | rfl
    · refine ⟨.bool false, .bool false, ?_, fun _ => ⟨rfl, rfl⟩, (by intro f h; cases h), (by intro h; cases h)⟩
      simp only [call, hj]; rfl
    · refine ⟨.str f, .bool false, ?_, (by intro h; cases h), ?_, (by intro h; simp at h)⟩
      · simp only [call, hj]; rfl
      · intro f' h
        simp only [List.cons.injEq, Prod.mk.injEq, Val.str.injEq, and_true, true_and] at h
        subst h
        exact ⟨hf, rfl, rfl⟩
    · refine ⟨.bool false, .bool true, ?_, (by intro h; cases h), (by intro f h; simp at h), fun _ => ⟨rfl, rfl⟩⟩
      simp only [call, hj]; rfl
  obtain ⟨af, up, hc, c1, c2, c3⟩ := hcall
  constructor
  · intro h
    rw [hc, base af up h]; rfl
  · intro x v h h'
    rw [hc, hit af up x v h h']
    refine ⟨?_, ?_, ?_⟩
    · intro e
      obtain ⟨rfl, rfl⟩ := c1 e
      cases v <;> rfl
    · intro f e
      obtain ⟨hf, rfl, rfl⟩ := c2 f e
      cases f with
      | nil => exact absurd rfl hf
      | cons a b => rfl
    · intro fs e hv
      subst hv
      obtain ⟨rfl, rfl⟩ := c3 e
      rfl

example : Simple c!"vlans" ∧ follow [c!"vlans"] (.dict (asDict [(c!"vlans", .dict (asDict [(c!"10", .str c!"mgmt")]))])) =
    some (.dict (asDict [(c!"10", .str c!"mgmt")])) := by
  exact ⟨⟨by decide, by decide⟩, by decide⟩

/-- C73, what does not hold: if the name leads to something that is no table, every record loses its value. -/
theorem C73_lookup_non_table (W : GroupFn.World) (ms : MS) (hW : W.lookups = .dict (asDict [(c!"vlans", .list [])])) :
    GroupFn.builtin W ⟨c!"lookup", [.str c!"vlan"], [(c!"name", .str c!"vlans")]⟩ ms (.dict (asDict [(c!"vlan", .str c!"10")])) =
      .ok (ms, .dict (asDict [(c!"vlan", .none)]), none) := by
  have : GroupFn.builtin W ⟨c!"lookup", [.str c!"vlan"], [(c!"name", .str c!"vlans")]⟩ ms (.dict (asDict [(c!"vlan", .str c!"10")])) =
      (do
        let v ← GroupFn.lookup W.lookups c!"vlans" (.dict (asDict [(c!"vlan", .str c!"10")])) (.str c!"vlan") (.bool false) (.bool true) (.bool false)
        pure (ms, v, none)) := rfl
  rw [this, hW]; rfl

/-! ## C74 -/

/-- C74. `equal(name, value)` keeps the record iff the variable is in it and equal to the value, which is the value of the
template variable of that name if there is one; `exclude_val` drops it exactly then; `contains_val` keeps it iff the value is
part of the variable's text (a variable that did not match counts as empty text). -/
theorem C74_value_checks (W : GroupFn.World) (ms : MS) (d : Dict Key Val) (name value : Str) (x : Val)
    (hx : x = (Dict.get? ms.vars value).getD (.str value)) (hn : x ≠ .none) :
    Decides W (fn c!"equal" [.str name, .str value]) ms (.dict d) (∃ v, valueOf d name = some v ∧ pyEq v x = true) ∧
    Decides W (fn c!"exclude_val" [.str name, .str value]) ms (.dict d) (¬ ∃ v, valueOf d name = some v ∧ pyEq v x = true) ∧
    (∀ s, x = .str s → (∀ v, valueOf d name = some v → ∃ t, v = .str t) →
      Decides W (fn c!"contains_val" [.str name, .str value]) ms (.dict d)
        (Py.contains (match valueOf d name with | some (.str t) => t | _ => []) s = true)) := by
  have hv : MatchFn.varOr ms.vars (.str value) = x := by
    rw [hx]; rfl
  refine ⟨?_, ?_, ?_⟩
  · refine decides_of W _ _ ms _ _ (by decide) (pyEq ((valueOf d name).getD .none) x) ?_ ?_
    · show Except.ok (pyEq ((valueOf d name).getD .none) (MatchFn.varOr ms.vars (.str value))) = _
      rw [hv]
    · cases valueOf d name with
      | none =>
        simp only [Option.getD_none, reduceCtorEq, false_and, exists_false, iff_false]
        cases x <;> simp [pyEq] at hn ⊢
      | some v => simp
  · have he : callCheck (fn c!"exclude_val" [.str name, .str value]) ms (.dict d) =
        GroupFn.excludeVal ms.vars (.dict d) (.str name) (.str value) := rfl
    cases hd : valueOf d name with
    | none =>
      refine decides_of W _ _ ms _ _ (by decide) true ?_ (by simp)
      rw [he]; unfold GroupFn.excludeVal
      have : getItem (.dict d) (.str name) = .error .keyError := by
        show (match Dict.get? d (.s name) with | some v => _ | none => _ : PyM _) = _
        unfold valueOf at hd; rw [hd]; rfl
      rw [this]
    | some v =>
      refine decides_of W _ _ ms _ _ (by decide) (!pyEq v x) ?_ (by simp)
      rw [he]; unfold GroupFn.excludeVal
      rw [getItem_str d name v hd, hv]
  · intro s hs hall
    have he : callCheck (fn c!"contains_val" [.str name, .str value]) ms (.dict d) =
        MatchFn.inData (MatchFn.varOr ms.vars (.str value)) ((valueOf d name).getD (.str [])) := rfl
    refine decides_of W _ _ ms _ _ (by decide) _ (he.trans ?_) Iff.rfl
    rw [hv, hs]
    cases hd : valueOf d name with
    | none => rfl
    | some v =>
      obtain ⟨t, rfl⟩ := hall v hd
      rfl

example : (Val.str c!"up") = (Dict.get? (Ex.msD []).vars c!"up").getD (.str c!"up") ∧ Val.str c!"up" ≠ .none := by decide

/-! ## C75 -/

/-- C75. `itemize(key)` drops a record without the variable; otherwise the record becomes the value of the variable, and the
path of the group gets exactly one asterisk - the results themselves are not touched. -/
theorem C75_itemize (W : GroupFn.World) (ms : MS) (d : Dict Key Val) (key : Str) (pre : List Str) (base : Str) (stars : Nat)
    (hp : ms.record.path = pre ++ [base ++ List.replicate stars '*']) (hb : base.getLast? ≠ some '*') :
    (valueOf d key = none → GroupFn.builtin W (fn c!"itemize" [.str key]) ms (.dict d) = .ok (ms, .dict d, some false)) ∧
    (∀ v, valueOf d key = some v → ∃ ms', GroupFn.builtin W (fn c!"itemize" [.str key]) ms (.dict d) = .ok (ms', v, none) ∧
      ms'.record = { ms.record with path := pre ++ [base ++ ['*']] } ∧ ms'.results = ms.results ∧ ms'.started = ms.started ∧
      ms'.ended = ms.ended ∧ ms'.vars = ms.vars ∧ ms'.gvars = ms.gvars) := by
  have hcall : GroupFn.builtin W (fn c!"itemize" [.str key]) ms (.dict d) = GroupFn.itemize W.toInt ms (.dict d) (.str key) none := rfl
  rw [hcall]
  constructor
  · intro h
    unfold GroupFn.itemize
    show (match Dict.get? d (.s key) with | none => _ | some v => _ : PyM _) = _
    unfold valueOf at h; rw [h]; rfl
  · intro v h
    have hstar : oneStarPath ms.record.path = .ok (pre ++ [base ++ ['*']]) := by
      unfold oneStarPath
      rw [hp]
      simp only [List.getLast?_append, List.getLast?_singleton, Option.some_or, List.dropLast_concat]
      rw [oneStar_eq base stars hb]; rfl
    refine ⟨{ ms with dynCache := cacheUpdate ms.dynCache d, record := { ms.record with path := pre ++ [base ++ ['*']] } }, ?_, rfl, rfl, rfl, rfl, rfl, rfl⟩
    unfold GroupFn.itemize
    show (match Dict.get? d (.s key) with | none => _ | some v => _ : PyM _) = _
    unfold valueOf at h; rw [h]
    show (do let p ← oneStarPath ms.record.path; _ : PyM _) = _
    rw [hstar]; rfl

example : (Ex.msD []).record.path = [] ++ [c!"g" ++ List.replicate 1 '*'] ∧ (c!"g").getLast? ≠ some '*' := by decide

/-- the cache after an update with names that are all different: the value of the record where it has one, else as before -/
private theorem cacheUpdate_get (d : Dict Key Val) (hd : (d.map (·.1)).Nodup) (n : Str) : ∀ c : Dict Str Val,
    Dict.get? (cacheUpdate c d) n = match Dict.get? d (.s n) with | some x => some x | none => Dict.get? c n := by
  induction d with
  | nil => intro c; rfl
  | cons kv d ih =>
    intro c
    obtain ⟨k, v⟩ := kv
    rw [List.map_cons, List.nodup_cons] at hd
    have ih := ih hd.2
    cases k with
    | i m =>
      show Dict.get? (cacheUpdate c d) n = _
      rw [ih c]
      have : Dict.get? ((Key.i m, v) :: d) (.s n) = Dict.get? d (.s n) := by simp [Dict.get?]
      rw [this]
    | s k =>
      show Dict.get? (cacheUpdate (Dict.set c k v) d) n = _
      rw [ih (Dict.set c k v)]
      by_cases hk : k = n
      · subst hk
        have h1 : Dict.get? d (.s k) = none := by
          rw [Dict.get?_eq_none_iff]; exact hd.1
        have h2 : Dict.get? ((Key.s k, v) :: d) (.s k) = some v := by simp [Dict.get?]
        rw [h1, h2]; exact Dict.get?_set_self c k v
      · have h2 : Dict.get? ((Key.s k, v) :: d) (.s n) = Dict.get? d (.s n) := by simp [Dict.get?, hk]
        rw [h2, Dict.get?_set_ne c v hk]

/-- C75. `itemize(key)` makes every value of the record available to the placeholders of paths, and changes no other placeholder. -/
theorem C75_placeholders (W : GroupFn.World) (ms ms' : MS) (d : Dict Key Val) (hd : (d.map (·.1)).Nodup) (key : Str) (v : Val)
    (h : GroupFn.builtin W (fn c!"itemize" [.str key]) ms (.dict d) = .ok (ms', v, none)) (n : Str) :
    Dict.get? ms'.dynCache n = match valueOf d n with | some x => some x | none => Dict.get? ms.dynCache n := by
  have hcall : GroupFn.builtin W (fn c!"itemize" [.str key]) ms (.dict d) = GroupFn.itemize W.toInt ms (.dict d) (.str key) none := rfl
  rw [hcall] at h
  unfold GroupFn.itemize at h
  have h : (match Dict.get? d (.s key) with
    | none => pure (ms, .dict d, some false)
    | some v => do
      let p ← oneStarPath ms.record.path
      pure ({ ms with dynCache := cacheUpdate ms.dynCache d, record := { ms.record with path := p } }, v, none) :
        PyM (MS × Val × Option Bool)) = .ok (ms', v, none) := h
  cases hk : Dict.get? d (.s key) with
  | none => rw [hk] at h; cases h
  | some w =>
    rw [hk] at h
    cases hp : oneStarPath ms.record.path with
    | error e => rw [hp] at h; cases h
    | ok p =>
      rw [hp] at h
      cases h
      exact cacheUpdate_get d hd n ms.dynCache

example (W : GroupFn.World) : ∃ ms' v, GroupFn.builtin W (fn c!"itemize" [.str c!"a"]) (Ex.msD []) (.dict [(.s c!"a", .str c!"x"), (.s c!"b", .str c!"y")])
    = .ok (ms', v, none) ∧ Dict.get? ms'.dynCache c!"b" = some (.str c!"y") := ⟨_, _, rfl, rfl⟩

/-! ## C76 -/

/-- C76. Macros of one `macro` run in the order of their names: the macros `a` and then the macros `b` on their result, unless
one of `a` returned `False`, which drops the record at once. -/
theorem C76_macro_sequence (W : GroupFn.World) (ms : MS) (data : Val) (a b : List Str) :
    GroupFn.builtin W (fn c!"macro" ((a ++ b).map .str)) ms data = (do
      let r ← GroupFn.builtin W (fn c!"macro" (a.map .str)) ms data
      if r.2.2 = some false then pure r else GroupFn.builtin W (fn c!"macro" (b.map .str)) r.1 r.2.1) := by
  have hall : ∀ l : List Str, MatchFn.allStrs (l.map Val.str) = .ok l := by
    intro l
    induction l with
    | nil => rfl
    | cons n ns ih => rw [List.map_cons, MatchFn.allStrs, ih]; rfl
  have hm : ∀ (l : List Str) (ms : MS) (data : Val), GroupFn.builtin W (fn c!"macro" (l.map .str)) ms data = (do
      let r ← macroLoop W.macros (macroNames l) data
      pure (ms, r.1, if r.2 then none else some false)) := by
    intro l ms data
    rw [data_builtin W _ ms _ (by rfl) (by rfl)]
    show (do let r ← (do macroLoop W.macros (macroNames (← MatchFn.allStrs (l.map Val.str))) data : PyM (Val × Bool)); pure (ms, r.1, if r.2 then none else some false) : PyM _) = _
    rw [hall]; rfl
  rw [hm, hm]
  have happ : macroNames (a ++ b) = macroNames a ++ macroNames b := by simp [macroNames]
  rw [happ, macroLoop_append]
  cases macroLoop W.macros (macroNames a) data with
  | error e => rfl
  | ok r =>
    obtain ⟨v, c⟩ := r
    simp only [ok_bind, pure_ok]
    cases c with
    | false => rfl
    | true =>
      simp only [if_true]
      rw [if_neg (by simp), hm]; rfl

/-- C76. One macro: `False` drops the record, `True` and `None` keep it as it is, any other value that is not equal to `True`
becomes the record; a macro that is not defined does nothing, and an exception in the macro is not caught. -/
theorem C76_one_macro (W : GroupFn.World) (ms : MS) (data : Val) (name : Str) (hc : ',' ∉ name) (hs : strip name = name) :
    (Dict.get? W.macros name = none → GroupFn.builtin W (fn c!"macro" [.str name]) ms data = .ok (ms, data, none)) ∧
    ∀ m, Dict.get? W.macros name = some m →
      (m data = .ok (.val (.bool false)) → GroupFn.builtin W (fn c!"macro" [.str name]) ms data = .ok (ms, data, some false)) ∧
      (m data = .ok (.val (.bool true)) ∨ m data = .ok (.val .none) →
        GroupFn.builtin W (fn c!"macro" [.str name]) ms data = .ok (ms, data, none)) ∧
      (∀ v, m data = .ok (.val v) → v ≠ .bool false → pyEq v (.bool true) = false → v ≠ .none →
        GroupFn.builtin W (fn c!"macro" [.str name]) ms data = .ok (ms, v, none)) ∧
      (∀ e, m data = .error e → GroupFn.builtin W (fn c!"macro" [.str name]) ms data = .error e) := by
  have hn : macroNames [name] = [name] := by
    simp only [macroNames, List.flatMap_cons, List.flatMap_nil, List.append_nil]
    rw [split_char, splitC_self ',' name hc, List.map_singleton, hs]
  have hm : GroupFn.builtin W (fn c!"macro" [.str name]) ms data = (do
      let r ← macroLoop W.macros [name] data
      pure (ms, r.1, if r.2 then none else some false)) := by
    rw [data_builtin W _ ms _ (by rfl) (by rfl)]
    show (do let r ← (do macroLoop W.macros (macroNames [name]) data : PyM (Val × Bool)); pure (ms, r.1, if r.2 then none else some false) : PyM _) = _
    rw [hn]
  rw [hm]
  constructor
  · intro h; simp only [macroLoop, h]; rfl
  · intro m h
    simp only [macroLoop, h]
    refine ⟨?_, ?_, ?_, ?_⟩
    · intro e; rw [e]; rfl
    · rintro (e | e) <;> rw [e] <;> rfl
    · intro v e h1 h2 h3
      rw [e, ok_bind]
      cases v with
      | bool b =>
        cases b with
        | false => exact absurd rfl h1
        | true => cases h2
      | none => exact absurd rfl h3
      | _ => simp only [h2, Bool.false_eq_true, reduceCtorEq, decide_false, Bool.or_self, if_false] <;> rfl
    · intro e h; rw [h]; rfl

/-- C76, what does not hold: a macro that returns the number 1 does not change the record. -/
theorem C76_macro_one (W : GroupFn.World) (ms : MS) (hW : W.macros = [(c!"f", fun _ => .ok (.val (.int 1)))]) :
    GroupFn.builtin W (fn c!"macro" [.str c!"f"]) ms (.str c!"x") = .ok (ms, .str c!"x", none) := by
  have : GroupFn.builtin W (fn c!"macro" [.str c!"f"]) ms (.str c!"x") = (do
      let r ← macroLoop W.macros [c!"f"] (.str c!"x")
      pure (ms, r.1, if r.2 then none else some false)) := rfl
  rw [this, hW]; rfl

end Props
