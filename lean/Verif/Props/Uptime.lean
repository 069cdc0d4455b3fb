import Verif.Props.Match
import Verif.Proofs.Uptime
/-!
# C107: durations in words
-/

namespace Props
open Py Spec TTP TTP.MatchFn

theorem duration_strip (d : Duration) (h : d.NonEmpty) : (strip d.text).isEmpty = false := by
  have hne : itemsOf d TUnit.all ≠ [] := by
    obtain ⟨u, hu⟩ := h
    cases hd : d u with
    | none => exact absurd hd hu
    | some a =>
      refine List.ne_nil_of_mem (a := (u, a)) (List.mem_filterMap.2 ⟨u, by cases u <;> decide, by rw [hd]; rfl⟩)
  rw [text_amounts]
  cases hL : itemsOf d TUnit.all with
  | nil => exact absurd hL hne
  | cons x L =>
    obtain ⟨c, cs, hc, hdg⟩ := amounts_head x L
    rw [hc]
    have hsp := isDigit_not_space' c hdg
    have h1 : c ∈ strip (c :: cs) := by
      unfold strip rstrip lstrip
      rw [List.dropWhile_cons_of_neg (by simp [hsp])]
      unfold rstripP
      rw [List.mem_reverse]
      cases hr : List.dropWhile isSpace (c :: cs).reverse with
      | nil =>
        have hall : ∀ l : Str, List.dropWhile isSpace l = [] → ∀ x ∈ l, isSpace x = true := by
          intro l
          induction l with
          | nil => intro _ x hx; cases hx
          | cons y l ih =>
            intro hl x hx
            rw [List.dropWhile_cons] at hl
            split at hl
            · rename_i hy
              rcases List.mem_cons.1 hx with rfl | hx
              · exact hy
              · exact ih hl x hx
            · cases hl
        have := hall _ hr c (by simp)
        rw [hsp] at this; cases this
      | cons y ys =>
        have hsuf : (y :: ys) <:+ (c :: cs).reverse := by rw [← hr]; exact List.dropWhile_suffix _
        obtain ⟨t, ht⟩ := hsuf
        have hl : (t ++ y :: ys).getLast (by simp) = c := by
          have h2 : ((c :: cs).reverse).getLast (by simp) = c := by simp
          simp only [ht]; exact h2
        rw [List.getLast_append_of_ne_nil (by simp) (by simp)] at hl
        rw [← hl]; exact List.getLast_mem _
    cases hs : strip (c :: cs) with
    | nil => rw [hs] at h1; cases h1
    | cons _ _ => rfl

theorem up_sum (d : Duration) :
    ((upMult.map (fun m => match Dict.get? (capsOf (itemsOf d TUnit.all)) m.1 with
        | some v => m.2 * (natOfDigits v : Int)
        | none => 0)).sum) = (d.seconds : Int) := by
  have hg := caps_get d
  have h : upMult = TUnit.all.map (fun u => (u.name, (u.seconds : Int))) := by decide
  rw [h, List.map_map]
  unfold Duration.seconds
  have : ∀ us : List TUnit, (us.map ((fun m : Str × Int => match Dict.get? (capsOf (itemsOf d TUnit.all)) m.1 with
        | some v => m.2 * (natOfDigits v : Int)
        | none => 0) ∘ fun u => (u.name, (u.seconds : Int)))).sum = (((us.map (fun u => match d u with
        | some a => a.1 * u.seconds
        | none => 0)).sum : Nat) : Int) := by
    intro us
    induction us with
    | nil => rfl
    | cons u us ih =>
      simp only [List.map_cons, List.sum_cons, Int.natCast_add, Function.comp_apply] at ih ⊢
      rw [ih, hg u]
      cases d u with
      | none => simp
      | some a =>
        simp only [Option.map_some, natStr_val, Int.natCast_mul]
        rw [Int.mul_comm]
  exact this TUnit.all

/-- C107. `uptimeparse` turns a duration written in words - any of the seven units, in their order, each with any number, singular
or plural - into its number of seconds. -/
theorem C107_uptime_seconds (W : World) (env : Env) (d : Duration) (h : d.NonEmpty) :
    builtin W (fn c!"uptimeparse" []) env (.str d.text) = .ok (env, .int d.seconds, .nothing) := by
  refine builtin_named W _ _ env _ (by decide) (by decide) (by decide) rfl (.int _, .nothing) ?_
  show (.ok (uptimeparse d.text (.str c!"seconds"), Flag.nothing) : PyM _) = _
  obtain ⟨x, xs, hr, hx, hc⟩ := up_match d
  unfold uptimeparse
  rw [hr]
  simp only [hx, hc, duration_strip d h, Bool.false_eq_true, if_false]
  have hall : (upGroups (capsOf (itemsOf d TUnit.all))).all (fun kv => isdigitS kv.2) = true := by
    rw [List.all_eq_true]
    intro kv hkv
    obtain ⟨m, hm, e⟩ := List.mem_filterMap.1 hkv
    have h0 : upMult = TUnit.all.map (fun u => (u.name, (u.seconds : Int))) := by decide
    rw [h0] at hm
    obtain ⟨u, _, rfl⟩ := List.mem_map.1 hm
    simp only [caps_get] at e
    cases hd : d u with
    | none => rw [hd] at e; cases e
    | some a =>
      rw [hd] at e
      simp only [Option.map_some, Option.some.injEq] at e
      rw [← e]
      show isdigitS (natStr a.1) = true
      unfold isdigitS
      rw [natStr_digits]
      cases hn : natStr a.1 with
      | nil => exact absurd hn (natStr_ne_nil _)
      | cons _ _ => rfl
  rw [hall]
  simp only [Bool.not_true, Bool.false_eq_true, if_false, if_true]
  exact congrArg (fun n : Int => (Except.ok (Val.int n, Flag.nothing) : PyM (Val × Flag))) (up_sum d)

/-- C107. With `format="dict"` the result has the numbers as they are written, under the names of the units. -/
theorem C107_uptime_dict (W : World) (env : Env) (d : Duration) (h : d.NonEmpty) :
    builtin W ⟨c!"uptimeparse", [], [(c!"format", .str c!"dict")]⟩ env (.str d.text) =
      .ok (env, .dict (TUnit.all.filterMap (fun u => (d u).map (fun a => (Key.s u.name, Val.str (natStr a.1))))), .nothing) := by
  refine builtin_pure W _ env _ (by simp) (by simp) (by simp [pureNames]) rfl (.dict _, .nothing) ?_
  show (.ok (uptimeparse d.text (.str c!"dict"), Flag.nothing) : PyM _) = _
  obtain ⟨x, xs, hr, hx, hc⟩ := up_match d
  have hg : (upGroups (capsOf (itemsOf d TUnit.all))) = TUnit.all.filterMap (fun u => (d u).map (fun a => (u.name, natStr a.1))) := by
    have h0 : upMult = TUnit.all.map (fun u => (u.name, (u.seconds : Int))) := by decide
    unfold upGroups
    rw [h0, List.filterMap_map]
    congr 1
    funext u
    simp only [Function.comp_apply, caps_get]
    cases d u <;> rfl
  unfold uptimeparse
  rw [hr]
  simp only [hx, hc, duration_strip d h, Bool.false_eq_true, if_false]
  have hall : (upGroups (capsOf (itemsOf d TUnit.all))).all (fun kv => isdigitS kv.2) = true := by
    rw [List.all_eq_true, hg]
    intro kv hkv
    obtain ⟨u, _, e⟩ := List.mem_filterMap.1 hkv
    cases hd : d u with
    | none => rw [hd] at e; cases e
    | some a =>
      rw [hd] at e
      simp only [Option.map_some, Option.some.injEq] at e
      rw [← e]
      show isdigitS (natStr a.1) = true
      unfold isdigitS
      rw [natStr_digits]
      cases hn : natStr a.1 with
      | nil => exact absurd hn (natStr_ne_nil _)
      | cons _ _ => rfl
  rw [hall]
  simp only [Bool.not_true, Bool.false_eq_true, if_false, if_true]
  rw [if_neg (by simp), hg, List.map_filterMap]
  congr 4
  funext u
  cases d u <;> rfl

/-- a duration: 2 years, 27 weeks, 3 days, 10 hours, 1 minute -/
def dur : Duration
  | .years => some (2, true)
  | .weeks => some (27, true)
  | .days => some (3, true)
  | .hours => some (10, true)
  | .mins => some (1, false)
  | _ => none

example : dur.NonEmpty ∧ dur.text = c!"2 years, 27 weeks, 3 days, 10 hours, 1 minute" ∧ dur.seconds = 79696860 :=
  ⟨⟨.years, by decide⟩, by decide, by decide⟩

set_option maxRecDepth 4000 in
/-- C107 does not extend to the short forms the code also accepts: the full stop allowed after `yr` and `mo` takes any character, so
the first digit of the next number is lost. 1 year and 12 days become 1 year and 2 days. -/
theorem C107_short_units_lose_digits (W : World) (env : Env) :
    builtin W ⟨c!"uptimeparse", [], [(c!"format", .str c!"dict")]⟩ env (.str c!"1yr12d") =
      .ok (env, .dict [(.s c!"years", .str c!"1"), (.s c!"days", .str c!"2")], .nothing) ∧
    builtin W ⟨c!"uptimeparse", [], [(c!"format", .str c!"dict")]⟩ env (.str c!"1mo30m") =
      .ok (env, .dict [(.s c!"months", .str c!"1"), (.s c!"mins", .str c!"0")], .nothing) := by
  constructor
  · refine builtin_pure W _ env _ (by simp) (by simp) (by simp [pureNames]) rfl (.dict [(.s c!"years", .str c!"1"), (.s c!"days", .str c!"2")], .nothing) ?_
    show (.ok (uptimeparse c!"1yr12d" (.str c!"dict"), Flag.nothing) : PyM _) = _
    have : uptimeparse c!"1yr12d" (.str c!"dict") = .dict [(.s c!"years", .str c!"1"), (.s c!"days", .str c!"2")] := by decide +kernel
    rw [this]
  · refine builtin_pure W _ env _ (by simp) (by simp) (by simp [pureNames]) rfl (.dict [(.s c!"months", .str c!"1"), (.s c!"mins", .str c!"0")], .nothing) ?_
    show (.ok (uptimeparse c!"1mo30m" (.str c!"dict"), Flag.nothing) : PyM _) = _
    have : uptimeparse c!"1mo30m" (.str c!"dict") = .dict [(.s c!"months", .str c!"1"), (.s c!"mins", .str c!"0")] := by decide +kernel
    rw [this]

end Props
