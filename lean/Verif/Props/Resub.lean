import Verif.Props.MatchStr
/-!
# C106 for every expression

`resub` with an expression that can match the empty text, such as `x*`: the rules of `re.sub`.
-/

namespace Spec
open Py TTP

/-- the match that is taken at the start of a text: the preferred one; if the last match was empty and at the same place, the preferred one
that is not empty -/
def taken (r : Re) (again : Bool) (s : Str) : Option Str :=
  ((Re.run r s).map (·.1)).find? (fun m => !again || decide (m ≠ []))

/-- `t` is `s` with the matches of `r` replaced by `new`, from left to right and at most `n` of them; `again` tells that an empty match at this
place is already replaced. -/
inductive Replacing (r : Re) (new : Str) : Bool → Option Nat → Str → Str → Prop where
  | limit (again : Bool) (s : Str) : Replacing r new again (some 0) s s
  | stop (again : Bool) (n : Option Nat) : n ≠ some 0 → taken r again [] = none → Replacing r new again n [] []
  | keep (again : Bool) (n : Option Nat) (c : Char) (s t : Str) : n ≠ some 0 → taken r again (c :: s) = none →
      Replacing r new false n s t → Replacing r new again n (c :: s) (c :: t)
  | hit (again : Bool) (n : Option Nat) (m b t : Str) : n ≠ some 0 → taken r again (m ++ b) = some m →
      Replacing r new (decide (m = [])) (n.map (· - 1)) b t → Replacing r new again n (m ++ b) (new ++ t)

/-- what is replaced: a text, or the matches of an expression -/
inductive Pattern where
  | text (w : Str)
  | rx (e : Str)

/-- the replacements one argument of `resuball` stands for: an expression, unless there is a template variable of that name. A text in
a variable is taken literally, the texts of a list or a dictionary are expressions. -/
def resubSteps (vars : Dict Str Val) (new old : Str) : List (Pattern × Str) :=
  match Dict.get? vars old with
  | none => [(.rx old, new)]
  | some (.str w) => [(.text w, new)]
  | some (.list vs) => (listPairs new vs).map (fun p => (.rx p.1, p.2))
  | some (.dict d) => (dictPairs (d.filterMap strEntry)).map (fun p => (.rx p.1, p.2))
  | some _ => []

/-- `t` is `s` after a list of replacements, one after the other; `rx` compiles expressions -/
inductive ReplacingSeq (rx : Str → PyM (List Re)) : List (Pattern × Str) → Str → Str → Prop where
  | nil (s : Str) : ReplacingSeq rx [] s s
  | text (w new s t u : Str) (rest : List (Pattern × Str)) : Replacing (Re.lits w) new false none s t → ReplacingSeq rx rest t u →
      ReplacingSeq rx ((.text w, new) :: rest) s u
  | expr (e new s t u : Str) (rs : List Re) (rest : List (Pattern × Str)) : rx e = .ok rs → Replacing (MatchFn.alts rs) new false none s t →
      ReplacingSeq rx rest t u → ReplacingSeq rx ((.rx e, new) :: rest) s u

end Spec

namespace Props
open Py Spec TTP TTP.MatchFn

theorem Replacing_unique (r : Re) (new : Str) {a : Bool} {n : Option Nat} {s t : Str} (h : Replacing r new a n s t) :
    ∀ t', Replacing r new a n s t' → t = t' := by
  induction h with
  | limit a s =>
    intro t' h'
    cases h' with
    | limit => rfl
    | stop _ _ h0 => exact absurd rfl h0
    | keep _ _ _ _ _ h0 => exact absurd rfl h0
    | hit _ _ _ _ _ h0 => exact absurd rfl h0
  | stop a n h0 hn =>
    intro t' h'
    generalize hs : ([] : Str) = s' at h'
    cases h' with
    | limit => exact absurd rfl h0
    | stop => rfl
    | keep => cases hs
    | hit _ _ m b t h1 hm _ => rw [← hs, hn] at hm; cases hm
  | keep a n c s t h0 hn _ ih =>
    intro t' h'
    generalize hs : c :: s = s' at h'
    cases h' with
    | limit => exact absurd rfl h0
    | stop => cases hs
    | keep _ _ c' s'' t'' _ _ hr => cases hs; rw [ih _ hr]
    | hit _ _ m b t h1 hm _ => rw [← hs, hn] at hm; cases hm
  | hit a n m b t h0 hm _ ih =>
    intro t' h'
    generalize hs : m ++ b = s' at h'
    cases h' with
    | limit => exact absurd rfl h0
    | stop _ _ _ hn => rw [hs, hn] at hm; cases hm
    | keep _ _ c' s'' t'' _ hn hr => rw [hs, hn] at hm; cases hm
    | hit _ _ m' b' t'' h1 hm' hr =>
      rw [hs, hm'] at hm
      cases hm
      have := List.append_cancel_left hs
      subst this
      rw [ih _ hr]

theorem taken_false (r : Re) (s : Str) : taken r false s = firstAt r s := by
  unfold taken firstAt
  cases Re.run r s <;> simp

theorem taken_prefix (r : Re) (a : Bool) (s m : Str) (h : taken r a s = some m) : ∃ b, s = m ++ b := by
  unfold taken at h
  obtain ⟨x, hx, rfl⟩ := List.mem_map.1 (List.mem_of_find?_eq_some h)
  exact ⟨_, (Re.run_split r s x hx).symm⟩

theorem taken_true (r : Re) (s : Str) : taken r true s = ((Re.run r s).filter (fun h => !h.1.isEmpty)).head?.map (·.1) := by
  unfold taken
  induction Re.run r s with
  | nil => rfl
  | cons x xs ih =>
    cases hx : x.1 with
    | nil => simpa [hx] using ih
    | cons _ _ => simp [hx]

theorem taken_nil (r : Re) : taken r true [] = none := by
  cases h : taken r true [] with
  | none => rfl
  | some m =>
    obtain ⟨b, hb⟩ := taken_prefix r true [] m h
    have hm : m = [] := (List.append_eq_nil_iff.1 hb.symm).1
    unfold taken at h
    have := List.find?_some h
    simp [hm] at this

theorem Replacing_subN (r : Re) (new : Str) : ∀ (l : Nat) (s : Str), s.length ≤ l → ∀ n, Replacing r new false n s (subN r new s 0 n) := by
  intro l
  induction l with
  | zero =>
    intro s hs n
    have : s = [] := List.length_eq_zero_iff.1 (Nat.le_zero.1 hs)
    subst this
    by_cases h0 : n = some 0
    · subst h0; rw [subN_limit]; exact .limit _ _
    · rw [subN, if_neg h0]
      cases hr : Re.run r [] with
      | nil => exact .stop _ _ h0 (by simp [taken, hr])
      | cons h hs =>
        have h1 : h.1 = [] := (List.append_eq_nil_iff.1 (Re.run_split r [] h (by rw [hr]; simp))).1
        have ht : taken r false ([] ++ []) = some [] := by simp [taken, hr, h1]
        have := Replacing.hit (r := r) (new := new) false n [] [] [] h0 ht (by
          by_cases h2 : n.map (· - 1) = some 0
          · rw [h2]; exact .limit _ _
          · exact .stop _ _ h2 (by simpa using taken_nil r))
        simpa using this
  | succ l ih =>
    intro s hs n
    by_cases h0 : n = some 0
    · subst h0; rw [subN_limit]; exact .limit _ _
    cases s with
    | nil => exact ih [] (by simp) n
    | cons c cs =>
      have hcs : cs.length ≤ l := by simpa using hs
      -- a match that is not empty
      have hjump : ∀ (a : Bool) (k : Option Nat) (h : Re.Hit), k ≠ some 0 → h ∈ Re.run r (c :: cs) → h.1 ≠ [] → taken r a (c :: cs) = some h.1 →
          Replacing r new a k (c :: cs) (new ++ subN r new cs (h.1.length - 1) (k.map (· - 1))) := by
        intro a k h hk hm hne ht
        have hsp := Re.run_split r _ h hm
        cases hh : h.1 with
        | nil => exact absurd hh hne
        | cons d ds =>
          rw [hh] at hsp ht
          have hd : d = c ∧ ds ++ h.2.1 = cs := by simpa using hsp
          rw [subN_skip _ _ _ _ _ (by rw [← hd.2]; simp)]
          have hdrop : cs.drop ((d :: ds).length - 1) = h.2.1 := by rw [← hd.2]; simp
          rw [hdrop, ← hsp]
          rw [← hsp] at ht
          refine .hit a k (d :: ds) h.2.1 _ hk ht ?_
          exact ih _ (by have := congrArg List.length hd.2; simp at this; omega) _
      rw [subN, if_neg h0]
      cases hr : Re.run r (c :: cs) with
      | nil => exact .keep _ _ c cs _ h0 (by simp [taken, hr]) (ih cs hcs n)
      | cons h hs' =>
        have hmem : h ∈ Re.run r (c :: cs) := by rw [hr]; simp
        simp only []
        by_cases h1 : h.1 = []
        · have ht : taken r false ([] ++ (c :: cs)) = some [] := by simp [taken, hr, h1]
          have key : ∀ t, Replacing r new true (n.map (· - 1)) (c :: cs) t → Replacing r new false n (c :: cs) (new ++ t) := by
            intro t h; exact Replacing.hit (r := r) (new := new) false n [] (c :: cs) t h0 ht (by simpa using h)
          rw [if_pos (by simp [h1])]
          rw [← hr]
          have htt := taken_true r (c :: cs)
          by_cases h2 : n.map (· - 1) = some 0
          · have hlim : Replacing r new true (n.map (· - 1)) (c :: cs) (c :: cs) := by rw [h2]; exact .limit _ _
            cases hf : (Re.run r (c :: cs)).filter (fun h => !h.1.isEmpty) with
            | nil => simp only [h2, subN_limit]; exact key _ hlim
            | cons x xs => simp only [h2, if_true, subN_limit]; exact key _ hlim
          · cases hf : (Re.run r (c :: cs)).filter (fun h => !h.1.isEmpty) with
            | nil =>
              rw [hf] at htt
              exact key _ (.keep _ _ c cs _ h2 (by simpa using htt) (ih cs hcs _))
            | cons x xs =>
              rw [hf] at htt
              have hx : x ∈ (Re.run r (c :: cs)).filter (fun h => !h.1.isEmpty) := by rw [hf]; simp
              obtain ⟨hx1, hx2⟩ := List.mem_filter.1 hx
              simp only [if_neg h2]
              have hj := hjump true (n.map (· - 1)) x h2 hx1 (by simpa using hx2) (by simpa using htt)
              have e : (n.map (· - 1)).map (· - 1) = n.map (· - 2) := by cases n <;> simp [Nat.sub_sub]
              rw [e] at hj
              exact key _ hj
        · rw [if_neg (by simpa using h1)]
          exact hjump false n h h0 hmem h1 (by simp [taken, hr])

/-- C106. `resub(old, new, count=n)` replaces the matches of any regular expression from left to right, at most `n` of them (all if `n` is 0);
empty matches count as well, one at a place. There is exactly one such text. -/
theorem C106_resub_any (W : World) (env : Env) (data old new : Str) (r : Re) (n : Nat) (hv : Dict.get? env.vars old = none)
    (hx : W.rx old = .ok [r]) (t : Str) :
    (builtin W (fn c!"resub" [.str old, .str new]) env (.str data) = .ok (env, .str t, .nothing) ↔ Replacing r new false (some 1) data t) ∧
    (builtin W ⟨c!"resub", [.str old, .str new], [(c!"count", .int n)]⟩ env (.str data) = .ok (env, .str t, .nothing) ↔
      Replacing r new false (if n = 0 then none else some n) data t) := by
  have hs : ∀ k : Int, resub W.rx env.vars data old new k = .ok (subN r new data 0 (countOf k)) := by
    intro k
    unfold resub
    rw [hv, hx]; rfl
  have hc : countOf n = if n = 0 then none else some n := by
    unfold countOf
    by_cases h : n = 0 <;> simp [h]
  have hiff : ∀ k, (Except.ok (env, Val.str (subN r new data 0 k), Flag.nothing) : PyM (Env × Val × Flag)) = .ok (env, .str t, .nothing) ↔
      Replacing r new false k data t := by
    intro k
    have hrep := Replacing_subN r new data.length data (Nat.le_refl _) k
    constructor
    · intro e; injection e with e; injection e with _ e; injection e with e _; injection e with e; rw [← e]; exact hrep
    · intro h; rw [Replacing_unique r new hrep t h]
  constructor
  · have h : builtin W (fn c!"resub" [.str old, .str new]) env (.str data) = .ok (env, .str (subN r new data 0 (some 1)), .nothing) := by
      refine builtin_named W _ _ env _ (by decide) (by decide) (by decide) rfl (.str _, .nothing) ?_
      show (do let v ← resub W.rx env.vars data old new 1; pure (Val.str v, Flag.nothing) : PyM _) = _
      rw [hs]; rfl
    rw [h]; exact hiff _
  · have h : builtin W ⟨c!"resub", [.str old, .str new], [(c!"count", .int n)]⟩ env (.str data) =
        .ok (env, .str (subN r new data 0 (if n = 0 then none else some n)), .nothing) := by
      refine builtin_kw W _ _ _ env _ (by decide) (by decide) (by decide) rfl (.str _, .nothing) ?_
      show (do let v ← resub W.rx env.vars data old new n; pure (Val.str v, Flag.nothing) : PyM _) = _
      rw [hs, hc]; rfl
    rw [h]; exact hiff _

/-- `re.sub("x*", "-", "abxd")` is `-a-b--d-` -/
example : Replacing (.star true (.cls (.lit 'x'))) c!"-" false none c!"abxd" c!"-a-b--d-" := by
  have h := Replacing_subN (.star true (.cls (.lit 'x'))) c!"-" 4 c!"abxd" (Nat.le_refl _) none
  have e : subN (.star true (.cls (.lit 'x'))) c!"-" c!"abxd" 0 none = c!"-a-b--d-" := by decide +kernel
  rwa [e] at h

/-- `re.sub("x*?", "-", "xa")` is `---a-`: an empty match and one that is not, at the same place -/
example : Replacing (.star false (.cls (.lit 'x'))) c!"-" false none c!"xa" c!"---a-" := by
  have h := Replacing_subN (.star false (.cls (.lit 'x'))) c!"-" 4 c!"xa" (by decide) none
  have e : subN (.star false (.cls (.lit 'x'))) c!"-" c!"xa" 0 none = c!"---a-" := by decide +kernel
  rwa [e] at h

/-! ## resuball -/

/-- one replacement -/
private def step (rx : Str → PyM (List Re)) : Pattern × Str → Str → PyM Str
  | (.text w, new), s => pure (subAll (Re.lits w) new s)
  | (.rx e, new), s => do pure (subAll (alts (← rx e)) new s)

private def steps (rx : Str → PyM (List Re)) : List (Pattern × Str) → Str → PyM Str
  | [], s => pure s
  | p :: ps, s => do steps rx ps (← step rx p s)

private theorem steps_append (rx : Str → PyM (List Re)) (a b : List (Pattern × Str)) (s : Str) :
    steps rx (a ++ b) s = (do steps rx b (← steps rx a s)) := by
  induction a generalizing s with
  | nil => rfl
  | cons p ps ih =>
    show (do steps rx (ps ++ b) (← step rx p s)) = (do steps rx b (← (do steps rx ps (← step rx p s))))
    cases h : step rx p s with
    | error e => rfl
    | ok t => exact ih t

private theorem steps_iff (rx : Str → PyM (List Re)) (ps : List (Pattern × Str)) (s t : Str) : steps rx ps s = .ok t ↔ ReplacingSeq rx ps s t := by
  have one : ∀ r new s t, subAll r new s = t ↔ Replacing r new false none s t := by
    intro r new s t
    have h := Replacing_subN r new s.length s (Nat.le_refl _) none
    exact ⟨fun e => e ▸ h, fun h' => Replacing_unique r new h t h'⟩
  constructor
  · intro h
    induction ps generalizing s with
    | nil => cases h; exact .nil _
    | cons p ps ih =>
      obtain ⟨p, new⟩ := p
      cases p with
      | text w => exact .text w new s _ t ps ((one _ _ _ _).1 rfl) (ih _ h)
      | rx e =>
        have h : (do steps rx ps (← (do pure (subAll (alts (← rx e)) new s)))) = Except.ok t := h
        cases he : rx e with
        | error x => rw [he] at h; cases h
        | ok rs => rw [he] at h; exact .expr e new s _ t rs ps he ((one _ _ _ _).1 rfl) (ih _ h)
  · intro h
    induction h with
    | nil s => rfl
    | text w new s t u rest h1 _ ih =>
      show steps rx rest (subAll (Re.lits w) new s) = _
      rw [(one _ _ _ _).2 h1]; exact ih
    | expr e new s t u rs rest he h1 _ ih =>
      show (do steps rx rest (← (do pure (subAll (alts (← rx e)) new s)))) = _
      rw [he]
      show steps rx rest (subAll (alts rs) new s) = _
      rw [(one _ _ _ _).2 h1]; exact ih

private theorem each_steps (rx : Str → PyM (List Re)) (new : Str) (vs : List Val) (s : Str) :
    resubEach rx new vs s = steps rx ((listPairs new vs).map (fun p => (.rx p.1, p.2))) s := by
  induction vs generalizing s with
  | nil => rfl
  | cons v vs ih =>
    cases v with
    | str old =>
      show (do resubEach rx new vs (subAll (alts (← rx old)) new s)) = (do steps rx _ (← (do pure (subAll (alts (← rx old)) new s))))
      cases rx old with
      | error e => rfl
      | ok rs => exact ih _
    | _ => exact ih s

private theorem dict_steps (rx : Str → PyM (List Re)) (d : List (Key × Val)) (hk : ∀ kv ∈ d, ∃ k, kv.1 = Key.s k) (s : Str) :
    resubDict rx d s = steps rx ((dictPairs (d.filterMap strEntry)).map (fun p => (.rx p.1, p.2))) s := by
  induction d generalizing s with
  | nil => rfl
  | cons kv d ih =>
    obtain ⟨k, v⟩ := kv
    obtain ⟨new, hnew⟩ := hk (k, v) (by simp)
    cases hnew
    have ih := ih (fun kv h => hk kv (by simp [h]))
    have e : dictPairs (((Key.s new, v) :: d).filterMap strEntry) = dictPairs [(new, v)] ++ dictPairs (d.filterMap strEntry) := by
      simp [dictPairs, strEntry]
    rw [e, List.map_append, steps_append]
    cases v with
    | list vs =>
      show (do resubDict rx d (← resubEach rx new vs s)) = _
      have e2 : dictPairs [(new, Val.list vs)] = listPairs new vs := by simp [dictPairs]
      rw [each_steps, e2]
      simp only [ih]
    | str old =>
      show (do resubDict rx d (subAll (alts (← rx old)) new s)) = (do steps rx _ (← (do steps rx [] (← (do pure (subAll (alts (← rx old)) new s))))))
      cases rx old with
      | error e => rfl
      | ok rs => exact ih _
    | _ => exact ih s

private theorem loop_steps (rx : Str → PyM (List Re)) (vars : Dict Str Val) (new : Str) (olds : List Str)
    (hk : ∀ old ∈ olds, ∀ d, Dict.get? vars old = some (.dict d) → ∀ kv ∈ d, ∃ k, kv.1 = Key.s k) (s : Str) :
    resubLoop rx vars new olds s = steps rx (olds.flatMap (resubSteps vars new)) s := by
  induction olds generalizing s with
  | nil => rfl
  | cons old olds ih =>
    rw [List.flatMap_cons, steps_append]
    have h1 : resubOne rx vars new old s = steps rx (resubSteps vars new old) s := by
      unfold resubOne resubSteps
      cases hg : Dict.get? vars old with
      | none =>
        show (do pure (subAll (alts (← rx old)) new s)) = (do steps rx [] (← (do pure (subAll (alts (← rx old)) new s))))
        cases rx old <;> rfl
      | some v =>
        cases v with
        | list vs => exact each_steps rx new vs s
        | dict d => exact dict_steps rx d (hk old (by simp) d hg) s
        | _ => rfl
    show (do resubLoop rx vars new olds (← resubOne rx vars new old s)) = _
    rw [h1]
    simp only [ih (fun o h => hk o (by simp [h]))]

private theorem steps_ok (rx : Str → PyM (List Re)) (ps : List (Pattern × Str)) (hx : ∀ e new, (Pattern.rx e, new) ∈ ps → ∃ rs, rx e = .ok rs) (s : Str) :
    ∃ t, steps rx ps s = .ok t := by
  induction ps generalizing s with
  | nil => exact ⟨s, rfl⟩
  | cons p ps ih =>
    have ih := ih (fun e new h => hx e new (by simp [h]))
    obtain ⟨p, new⟩ := p
    cases p with
    | text w => exact ih _
    | rx e =>
      obtain ⟨rs, hrs⟩ := hx e new (by simp)
      obtain ⟨t, ht⟩ := ih (subAll (alts rs) new s)
      refine ⟨t, ?_⟩
      show (do steps rx ps (← (do pure (subAll (alts (← rx e)) new s)))) = _
      rw [hrs]; exact ht

/-- C106. `resuball(new, old, ...)` carries out the replacements its arguments stand for, one after the other and every one for all its
matches, if all the expressions can be compiled. -/
theorem C106_resuball (W : World) (env : Env) (data new : Str) (olds : List Str) (hne : olds ≠ [])
    (hk : ∀ old ∈ olds, ∀ d, Dict.get? env.vars old = some (.dict d) → ∀ kv ∈ d, ∃ k, kv.1 = Key.s k)
    (hx : ∀ e new', (Pattern.rx e, new') ∈ olds.flatMap (resubSteps env.vars new) → ∃ rs, W.rx e = .ok rs) (t : Str) :
    builtin W (fn c!"resuball" (.str new :: olds.map .str)) env (.str data) = .ok (env, .str t, .nothing) ↔
      ReplacingSeq W.rx (olds.flatMap (resubSteps env.vars new)) data t := by
  obtain ⟨u, hu⟩ := steps_ok W.rx _ hx data
  rw [← steps_iff, hu]
  rw [← loop_steps W.rx env.vars new olds hk] at hu
  obtain ⟨o, os, rfl⟩ : ∃ o os, olds = o :: os := by
    cases olds with
    | nil => exact absurd rfl hne
    | cons o os => exact ⟨o, os, rfl⟩
  have hall : allStrs (.str new :: (o :: os).map .str) = .ok (new :: o :: os) := allStrs_map (new :: o :: os)
  have hc : builtin W (fn c!"resuball" (.str new :: (o :: os).map .str)) env (.str data) = .ok (env, .str u, .nothing) := by
    refine builtin_named W _ _ env _ (by decide) (by decide) (by decide) rfl (.str u, .nothing) ?_
    show (do let ss ← allStrs (.str new :: (o :: os).map .str); let v ← resuball W.rx env.vars data ss; pure (Val.str v, Flag.nothing) : PyM (Val × Flag)) = _
    rw [hall]
    show (do let v ← resubLoop W.rx env.vars new (o :: os) data; pure (Val.str v, Flag.nothing) : PyM (Val × Flag)) = _
    rw [hu]; rfl
  rw [hc]
  constructor
  · intro h; cases h; rfl
  · intro h; cases h; rfl

/-- C106. With one argument `resuball` removes the matches. -/
theorem C106_resuball_one (W : World) (env : Env) (data old : Str)
    (hk : ∀ d, Dict.get? env.vars old = some (.dict d) → ∀ kv ∈ d, ∃ k, kv.1 = Key.s k)
    (hx : ∀ e new', (Pattern.rx e, new') ∈ resubSteps env.vars [] old → ∃ rs, W.rx e = .ok rs) (t : Str) :
    builtin W (fn c!"resuball" [.str old]) env (.str data) = .ok (env, .str t, .nothing) ↔
      ReplacingSeq W.rx (resubSteps env.vars [] old) data t := by
  have h0 := loop_steps W.rx env.vars [] [old] (by intro o ho; rw [List.mem_singleton.1 ho]; exact hk) data
  rw [List.flatMap_cons, List.flatMap_nil, List.append_nil] at h0
  obtain ⟨u, hu⟩ := steps_ok W.rx _ hx data
  rw [← steps_iff, hu]
  rw [hu] at h0
  have hc : builtin W (fn c!"resuball" [.str old]) env (.str data) = .ok (env, .str u, .nothing) := by
    refine builtin_named W _ _ env _ (by decide) (by decide) (by decide) rfl (.str u, .nothing) ?_
    show (do let v ← resubLoop W.rx env.vars [] [old] data; pure (Val.str v, Flag.nothing) : PyM (Val × Flag)) = _
    rw [h0]; rfl
  rw [hc]
  constructor
  · intro h; cases h; rfl
  · intro h; cases h; rfl

/-- a list variable with two expressions -/
example : builtin reWorld (fn c!"resuball" [.str c!"-", .str c!"names"]) ⟨[(c!"names", .list [.str c!"Vl", .int 3, .str c!"Vlan|Lo"])], []⟩
    (.str c!"Vl1Lo2") = .ok (⟨[(c!"names", .list [.str c!"Vl", .int 3, .str c!"Vlan|Lo"])], []⟩, .str c!"-1-2", .nothing) := by
  rfl

end Props
