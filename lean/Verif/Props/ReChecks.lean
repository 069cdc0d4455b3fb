import Verif.Props.MatchStr
/-!
# C105: the exact behaviour of the checks with regular expressions, for any number of alternatives
-/

namespace Props
open Py Spec TTP TTP.MatchFn

/-- C105. For a pattern with the alternatives `first`, ..., `last` at its top level: `contains_re` holds iff one of them matches somewhere.
`startswith_re` holds iff the first one matches at the beginning or another one somewhere, `endswith_re` iff the last one has a match that
ends at the end or another one matches somewhere. `exclude_re`, `notstartswith_re` and `notendswith_re` are their negations, and the value
is kept. -/
theorem C105_exact (W : World) (env : Env) (pat s : Str) (alternatives : List Re) (hx : W.rx pat = .ok alternatives)
    (first last : Re) (others before : List Re) (hf : alternatives = first :: others) (hl : alternatives = before ++ [last]) :
    ∃ c b e : Bool, (c = true ↔ ∃ p ∈ alternatives, Somewhere p s) ∧ (b = true ↔ Re.run first s ≠ [] ∨ ∃ p ∈ others, Somewhere p s) ∧
      (e = true ↔ SomewhereEnding last s ∨ ∃ p ∈ before, Somewhere p s) ∧
      builtin W (fn c!"contains_re" [.str pat]) env (.str s) = .ok (env, .str s, if c then .yes else .no) ∧
      builtin W (fn c!"exclude_re" [.str pat]) env (.str s) = .ok (env, .str s, if c then .no else .yes) ∧
      builtin W (fn c!"startswith_re" [.str pat]) env (.str s) = .ok (env, .str s, if b then .yes else .no) ∧
      builtin W (fn c!"notstartswith_re" [.str pat]) env (.str s) = .ok (env, .str s, if b then .no else .yes) ∧
      builtin W (fn c!"endswith_re" [.str pat]) env (.str s) = .ok (env, .str s, if e then .yes else .no) ∧
      builtin W (fn c!"notendswith_re" [.str pat]) env (.str s) = .ok (env, .str s, if e then .no else .yes) := by
  refine ⟨searchRe alternatives s, startsRe alternatives s, endsRe alternatives s, ?_, ?_, ?_, ?_, ?_, ?_, ?_, ?_, ?_⟩
  · rw [searchRe, search_iff, somewhere_alts _ (by rw [hf]; simp)]
  · rw [hf]; exact startsRe_iff first others s
  · rw [hl]; exact endsRe_iff before last s
  · exact re_call W env _ pat s _ hx searchRe (by decide) (by decide) (by decide) rfl rfl
  · rw [re_call W env _ pat s _ hx (fun ps s => !searchRe ps s) (by decide) (by decide) (by decide) rfl rfl]
    cases searchRe alternatives s <;> rfl
  · exact re_call W env _ pat s _ hx startsRe (by decide) (by decide) (by decide) rfl rfl
  · rw [re_call W env _ pat s _ hx (fun ps s => !startsRe ps s) (by decide) (by decide) (by decide) rfl rfl]
    cases startsRe alternatives s <;> rfl
  · exact re_call W env _ pat s _ hx endsRe (by decide) (by decide) (by decide) rfl rfl
  · rw [re_call W env _ pat s _ hx (fun ps s => !endsRe ps s) (by decide) (by decide) (by decide) rfl rfl]
    cases endsRe alternatives s <;> rfl

/-- the hypotheses are met -/
example : reWorld.rx c!"Vlan|Lo" = .ok [Re.lits c!"Vlan", Re.lits c!"Lo"] ∧
    [Re.lits c!"Vlan", Re.lits c!"Lo"] = Re.lits c!"Vlan" :: [Re.lits c!"Lo"] ∧
    [Re.lits c!"Vlan", Re.lits c!"Lo"] = [Re.lits c!"Vlan"] ++ [Re.lits c!"Lo"] := ⟨rfl, rfl, rfl⟩

end Props
