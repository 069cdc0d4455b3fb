import Verif.Proofs.Strings3
import Verif.Props.Parser
/-!
# C22: the strings of the results come from the input

`parseText` is the whole way from a text to the results of a template: search of matches, checks, results machine.
-/

namespace Props
open Py Spec TTP

/-- C22, general form. Any property `P` of strings that all contiguous pieces of the text, all strings in defaults and
variables and in the results so far have, and that joining keeps (for the join strings in use), is a property of all
strings of the results - if the functions in use (match functions of variables, group functions) keep it. Groups, lines,
nesting, paths and the text are arbitrary. -/
theorem C22_string_invariant (P : Str → Prop) (mf : MatchFns) (gf : GroupFns) (toInt : Bool) (vtr : Dict Str (List Str))
    (groups : List Grp) (text : Str) (env : Env) (main : Val) (ms : MS)
    (hP : ∀ s, s <:+: text → P s)
    (hd : ∀ i ∈ infosAll groups, AllStrD P i.defaults)
    (hv : ∀ kv ∈ env.vars, AllStr P kv.2) (hgv : ∀ kv ∈ env.gvars, AllStr P kv.2) (hm : AllStr P main)
    (hj : ∀ l ∈ linesAll groups, l.action = .join → ∀ j, JoinString l j → ∀ a b, P a → P b → P (a ++ (j ++ b)))
    (hk : MatchFnsKeep P mf (UsedMatchFn groups)) (hg : GroupFnsKeep P gf (UsedGroupFn groups))
    (h : parseText mf gf toInt vtr groups text env main = .ok ms) : AllStr P ms.results :=
  (parseText_ok hP hd hj hk hg hv hgv hm h).results

/-- C22. Functions in use, if any, only accept or reject (they return the value and the state as they got them): every
string in the results is a contiguous piece of the text, or a string of defaults, template variables or earlier results
(`given`), or such strings joined by the join string of a line with `joinmatches`. -/
theorem C22_no_fabricated_values (mf : MatchFns) (gf : GroupFns) (toInt : Bool) (vtr : Dict Str (List Str))
    (groups : List Grp) (text : Str) (env : Env) (main : Val) (ms : MS) (given : Str → Prop)
    (hd : ∀ i ∈ infosAll groups, AllStrD given i.defaults)
    (hv : ∀ kv ∈ env.vars, AllStr given kv.2) (hgv : ∀ kv ∈ env.gvars, AllStr given kv.2) (hm : AllStr given main)
    (hmf : ∀ f, UsedMatchFn groups f → ∀ env v env' v' fl, mf f env v = .ok (env', v', fl) →
      env' = env ∧ v' = v ∧ ∀ d, fl ≠ .newField d)
    (hgf : ∀ f, UsedGroupFn groups f → ∀ ms v ms' v' fl, gf f ms v = .ok (ms', v', fl) → ms' = ms ∧ v' = v)
    (h : parseText mf gf toInt vtr groups text env main = .ok ms) :
    AllStr (FromText text given groups) ms.results := by
  have mono := fun {v : Val} => allStr_mono (P := given) (Q := FromText text given groups) (fun s hs => .given s hs) v
  refine C22_string_invariant _ mf gf toInt vtr groups text env main ms (fun s hs => .piece s hs)
    (fun i hi => allStrD_mono (fun s hs => .given s hs) _ (hd i hi)) (fun kv hkv => mono (hv kv hkv))
    (fun kv hkv => mono (hgv kv hkv)) (mono hm)
    (fun l hl ha j hjs a b h1 h2 => .joined a b j l hl ha hjs h1 h2) ?_ ?_ h
  · intro f hf env v env' v' fl h1 h2 h3 e
    obtain ⟨rfl, rfl, h4⟩ := hmf f hf env v env' v' fl e
    exact ⟨h1, h2, h3, fun d hd => absurd hd (h4 d)⟩
  · intro f hf ms v ms' v' fl h1 h2 e
    obtain ⟨rfl, rfl⟩ := hgf f hf ms v ms' v' fl e
    exact ⟨h1, h2⟩

namespace Ex
/-- `interface {{ name }}` and ` vlans {{ vlans | joinmatches(",") }}` -/
def grpJ : Grp := .mk infoI [lineOf .start c!"interface {{ name }}"]
  [⟨(compileText c!" vlans {{ vlans }}").re, [(c!"vlans", (c!"vlans", [⟨c!"joinmatches", [.str c!","], []⟩]))], .join, false⟩]
  [] false []
end Ex

/-- a result with a default, a piece of the text and a joined value; the hypotheses of `C22_no_fabricated_values` hold with
`given` = the default -/
example : (parseText Ex.mf0 Ex.gf0 false [] [Ex.grpJ] (dataText c!"interface a\n vlans 1,2\n vlans 3") Ex.env0
      (.dict [])).map (·.results) =
    .ok (.dict [(.s c!"interfaces", .list [.dict [(.s c!"name", .str c!"a"), (.s c!"vlans", .str c!"1,2,3"),
      (.s c!"mtu", .str c!"1500")]])]) := by decide +kernel

example : (∀ i ∈ infosAll [Ex.grpJ], AllStrD (· = c!"1500") i.defaults) ∧
    (∀ f env v env' v' fl, Ex.mf0 f env v = .ok (env', v', fl) → env' = env ∧ v' = v ∧ ∀ d, fl ≠ .newField d) ∧
    (∀ f ms v ms' v' fl, Ex.gf0 f ms v = .ok (ms', v', fl) → ms' = ms ∧ v' = v) := by
  refine ⟨?_, ?_, ?_⟩
  · intro i hi
    simp only [Ex.grpJ, infosAll, Grp.infos, List.append_nil, List.mem_singleton] at hi
    subst hi
    exact ⟨rfl, trivial⟩
  · intro f env v env' v' fl h
    simp only [Ex.mf0, pure_ok, Except.ok.injEq, Prod.mk.injEq] at h
    exact ⟨h.1.symm, h.2.1.symm, fun d hd => by rw [← h.2.2] at hd; cases hd⟩
  · intro f ms v ms' v' fl h
    simp only [Ex.gf0, pure_ok, Except.ok.injEq, Prod.mk.injEq] at h
    exact ⟨h.1.symm, h.2.1.symm⟩

end Props
