import Verif.Proofs.Equal
import Verif.Props.Group
import Verif.Props.MatchStr
import Verif.Model.Format
/-!
# C114: equal values
-/

namespace Props
open Py Spec TTP
open TTP.MatchFn (pyEq MRes)

/-- C114. `equal` and `notequal` of a match variable: the value stays as it is, and it is accepted exactly if it equals (or does not equal) the
argument, whatever kinds of values they are. -/
theorem C114_match (W : MatchFn.World) (env : Env) (data x : Val) (hd : DeepWF data) (hx : DeepWF x) :
    (SameVal data x → MatchFn.builtin W (fn c!"equal" [x]) env data = .ok (env, data, .yes) ∧
      MatchFn.builtin W (fn c!"notequal" [x]) env data = .ok (env, data, .no)) ∧
    (¬ SameVal data x → MatchFn.builtin W (fn c!"equal" [x]) env data = .ok (env, data, .no) ∧
      MatchFn.builtin W (fn c!"notequal" [x]) env data = .ok (env, data, .yes)) := by
  have h1 : MatchFn.builtin W (fn c!"equal" [x]) env data = .ok (env, data, MatchFn.chk (pyEq data x)) :=
    builtin_named W _ _ env _ (by decide) (by decide) (by decide) rfl (data, MatchFn.chk (pyEq data x)) rfl
  have h2 : MatchFn.builtin W (fn c!"notequal" [x]) env data = .ok (env, data, MatchFn.chk (!pyEq data x)) :=
    builtin_named W _ _ env _ (by decide) (by decide) (by decide) rfl (data, MatchFn.chk (!pyEq data x)) rfl
  rw [h1, h2, ← pyEq_iff data x hd hx]
  cases pyEq data x
  · exact ⟨fun h => (by cases h), fun _ => ⟨rfl, rfl⟩⟩
  · exact ⟨fun _ => ⟨rfl, rfl⟩, fun h => absurd rfl h⟩

/-- C114. `equal` and `exclude_val` of a group: the record stays exactly if the variable is in it and equals the value (or does not). -/
theorem C114_group (W : GroupFn.World) (ms : MS) (d : Dict Key Val) (name value : Str) (x : Val)
    (hx : x = (Dict.get? ms.vars value).getD (.str value)) (hn : x ≠ .none) (hd : DeepWF (.dict d)) (hw : DeepWF x) :
    Decides W (fn c!"equal" [.str name, .str value]) ms (.dict d) (∃ v, valueOf d name = some v ∧ SameVal v x) ∧
    Decides W (fn c!"exclude_val" [.str name, .str value]) ms (.dict d) (¬ ∃ v, valueOf d name = some v ∧ SameVal v x) := by
  have e : (∃ v, valueOf d name = some v ∧ SameVal v x) ↔ (∃ v, valueOf d name = some v ∧ pyEq v x = true) := by
    constructor
    · rintro ⟨v, h, hs⟩; exact ⟨v, h, (pyEq_iff v x (DeepWFD_get (by rw [DeepWF] at hd; exact hd.2) h) hw).2 hs⟩
    · rintro ⟨v, h, hs⟩; exact ⟨v, h, (pyEq_iff v x (DeepWFD_get (by rw [DeepWF] at hd; exact hd.2) h) hw).1 hs⟩
  rw [e]
  exact ⟨(C74_value_checks W ms d name value x hx hn).1, (C74_value_checks W ms d name value x hx hn).2.1⟩

/-- C114. The output function `is_equal` says `True` exactly if the data equal what the output tag contains; with results of groups without a
name, it compares those only. -/
theorem C114_is_equal (tag data : Val) (ht : DeepWF tag) (hd : DeepWF data) (hl : ∀ s, data ≠ .str s) (hl2 : ∀ xs, data = .list xs → Val.str c!"_anonymous_" ∉ xs)
    (b : Bool) :
    (∀ d v, data = .dict d → valueOf d c!"_anonymous_" = some v → (Format.isEqual tag data = .ok b ↔ (b = true ↔ SameVal v tag))) ∧
    (((∃ xs, data = .list xs) ∨ ∃ d, data = .dict d ∧ valueOf d c!"_anonymous_" = none) →
      (Format.isEqual tag data = .ok b ↔ (b = true ↔ SameVal data tag))) := by
  have key : ∀ p : Prop, ∀ c : Bool, (c = true ↔ p) → ((Except.ok c : PyM Bool) = .ok b ↔ (b = true ↔ p)) := by
    intro p c hc
    rw [← hc]
    cases b <;> cases c <;> simp
  constructor
  · rintro d v rfl hv
    have : Format.isEqual tag (.dict d) = .ok (pyEq v tag) := by
      unfold Format.isEqual
      have e : MatchFn.inData (.str c!"_anonymous_") (.dict d) = .ok true := by
        show Except.ok (Dict.has d (.s c!"_anonymous_")) = _
        unfold valueOf at hv
        rw [Dict.has, hv]; rfl
      rw [e, ok_bind, if_pos rfl]
      unfold valueOf at hv
      simp only [hv]
      rfl
    rw [this]
    exact key _ _ (pyEq_iff v tag (DeepWFD_get (by rw [DeepWF] at hd; exact hd.2) hv) ht)
  · intro h
    have : Format.isEqual tag data = .ok (pyEq data tag) := by
      rcases h with ⟨xs, rfl⟩ | ⟨d, rfl, hn⟩
      · unfold Format.isEqual
        have e : MatchFn.inData (.str c!"_anonymous_") (.list xs) = .ok false := by
          show Except.ok (xs.any (fun y => pyEq y (.str c!"_anonymous_"))) = _
          have : xs.any (fun y => pyEq y (.str c!"_anonymous_")) = false := by
            rw [List.any_eq_false]
            intro y hy he
            cases y <;> simp [pyEq] at he
            subst he
            exact hl2 xs rfl hy
          rw [this]
        rw [e]; rfl
      · unfold Format.isEqual
        have e : MatchFn.inData (.str c!"_anonymous_") (.dict d) = .ok false := by
          show Except.ok (Dict.has d (.s c!"_anonymous_")) = _
          unfold valueOf at hn
          rw [Dict.has, hn]; rfl
        rw [e]; rfl
    rw [this]
    exact key _ _ (pyEq_iff data tag hd ht)

/-- C114. Equality is the same in both directions, and every value equals itself. -/
theorem C114_symm (a b : Val) (h : SameVal a b) : SameVal b a := by
  induction h with
  | none => exact .none
  | bool b => exact .bool b
  | int n => exact .int n
  | true_one => exact .one_true
  | one_true => exact .true_one
  | false_zero => exact .zero_false
  | zero_false => exact .false_zero
  | flt t => exact .flt t
  | str s => exact .str s
  | list hl _ ih => exact .list hl.symm (fun i x y hx hy => ih i y x hy hx)
  | dict hk _ ih => exact .dict (fun k => (hk k).symm) (fun k x y hx hy => ih k y x hy hx)

theorem C114_refl (a : Val) (ha : DeepWF a) : SameVal a a := by
  match a with
  | .none => exact .none
  | .bool b => exact .bool b
  | .int n => exact .int n
  | .flt t => exact .flt t
  | .str s => exact .str s
  | .list xs =>
    rw [DeepWF] at ha
    refine .list rfl ?_
    intro i x y hx hy
    rw [hx] at hy; cases hy
    have : sizeOf x < sizeOf xs := List.sizeOf_lt_of_mem (List.mem_of_getElem? hx)
    exact C114_refl x (DeepWFL_get ha hx)
  | .dict xs =>
    rw [DeepWF] at ha
    refine .dict (fun k => Iff.rfl) ?_
    intro k x y hx hy
    rw [hx] at hy; cases hy
    have : sizeOf x < sizeOf xs := by
      have hm := Dict.mem_of_get? _ _ _ hx
      have h1 := List.sizeOf_lt_of_mem hm
      have h2 : sizeOf (k, x) = 1 + sizeOf k + sizeOf x := rfl
      omega
    exact C114_refl x (DeepWFD_get ha.2 hx)
termination_by sizeOf a

/-- lists are not equal to a part of them, dictionaries do not mind the order of keys, `True` is 1 -/
example : ¬ SameVal (.list [.int 1]) (.list [.int 1, .int 2]) ∧ SameVal (.list [.bool true]) (.list [.int 1]) ∧
    SameVal (.dict [(.s c!"a", .int 1), (.s c!"b", .int 0)]) (.dict [(.s c!"b", .bool false), (.s c!"a", .int 1)]) := by
  refine ⟨?_, ?_, ?_⟩
  · intro h; cases h with | list h _ => cases h
  · exact pyEq_sound _ _ (by simp [DeepWF, DeepWFL]) (by simp [DeepWF, DeepWFL]) rfl
  · exact pyEq_sound _ _ (by simp [DeepWF, DeepWFD]) (by simp [DeepWF, DeepWFD]) rfl

end Props
