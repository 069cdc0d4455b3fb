import Verif.Props.Match
import Verif.Proofs.MatchStr
import Verif.Proofs.Line2
/-!
# C100 - C106: functions of match variables that edit text, check it, and use tables
-/

namespace Props
open Py Spec TTP TTP.MatchFn

theorem builtin_kw (W : World) (name : Str) (args : List Val) (kw : Dict Str Val) (env : Env) (data : Val) (h1 : name ≠ c!"count")
    (h2 : name ≠ c!"record") (h3 : pureNames.contains name = true) (h4 : lookupElsewhere ⟨name, args, kw⟩ = false) (r : Val × Flag)
    (h : callPure W ⟨name, args, kw⟩ env data = .ok r) : builtin W ⟨name, args, kw⟩ env data = .ok (env, r.1, r.2) :=
  builtin_pure W ⟨name, args, kw⟩ env data h1 h2 h3 h4 r h

/-! ## C100 replaceall -/

/-- C100. `replaceall(new, old1, old2, ..)` with at least one old text replaces, from the left of the argument list to its end, every
occurrence of each text an argument stands for: the argument itself, or, if it is the name of a template variable, the strings
of that list, or the values of that dictionary by their keys. The result is determined. -/
theorem C100_replaceall (W : World) (env : Env) (data new : Str) (olds : List Str) (hne : olds ≠ [])
    (hk : ∀ old ∈ olds, ∀ d, Dict.get? env.vars old = some (.dict d) → ∀ kv ∈ d, ∃ k, kv.1 = Key.s k)
    (ho : ∀ old ∈ olds, ∀ p ∈ argPairs env.vars new old, p.1 ≠ []) (t : Str) :
    builtin W (fn c!"replaceall" (.str new :: olds.map .str)) env (.str data) = .ok (env, .str t, .nothing) ↔
      ReplacedSeq (olds.flatMap (argPairs env.vars new)) data t := by
  have hp : ∀ p ∈ olds.flatMap (argPairs env.vars new), p.1 ≠ [] := by
    intro p hp
    obtain ⟨o, ho', hp⟩ := List.mem_flatMap.1 hp
    exact ho o ho' p hp
  rw [ReplacedSeq_iff _ hp]
  have h : builtin W (fn c!"replaceall" (.str new :: olds.map .str)) env (.str data) =
      .ok (env, .str (runPairs (olds.flatMap (argPairs env.vars new)) data), .nothing) := by
    refine builtin_named W _ _ env _ (by decide) (by decide) (by decide) rfl (.str _, .nothing) ?_
    show (do
      let ss ← allStrs (.str new :: olds.map .str)
      let v ← replaceall env.vars data ss
      pure (Val.str v, Flag.nothing) : PyM _) = _
    rw [show (Val.str new :: olds.map Val.str) = (new :: olds).map Val.str from rfl, allStrs_map]
    cases olds with
    | nil => exact absurd rfl hne
    | cons o os =>
      show (do
        let v ← replaceLoop env.vars new (o :: os) data
        pure (Val.str v, Flag.nothing) : PyM _) = _
      rw [replaceLoop_pairs env.vars new (o :: os) data hk]
      rfl
  rw [h]
  constructor
  · intro e; injection e with e; injection e with _ e; injection e with e _; injection e with e; exact e.symm
  · rintro rfl; rfl

/-- C100. With one argument the text is removed. -/
theorem C100_replaceall_one (W : World) (env : Env) (data old : Str)
    (hk : ∀ d, Dict.get? env.vars old = some (.dict d) → ∀ kv ∈ d, ∃ k, kv.1 = Key.s k)
    (ho : ∀ p ∈ argPairs env.vars [] old, p.1 ≠ []) (t : Str) :
    builtin W (fn c!"replaceall" [.str old]) env (.str data) = .ok (env, .str t, .nothing) ↔
      ReplacedSeq (argPairs env.vars [] old) data t := by
  rw [ReplacedSeq_iff _ ho]
  have h : builtin W (fn c!"replaceall" [.str old]) env (.str data) =
      .ok (env, .str (runPairs (argPairs env.vars [] old) data), .nothing) := by
    refine builtin_named W _ _ env _ (by decide) (by decide) (by decide) rfl (.str _, .nothing) ?_
    show (do
      let v ← replaceLoop env.vars [] [old] data
      pure (Val.str v, Flag.nothing) : PyM _) = _
    rw [replaceLoop_pairs env.vars [] [old] data (by intro o ho'; rw [List.mem_singleton.1 ho']; exact hk)]
    simp only [List.flatMap_cons, List.flatMap_nil, List.append_nil]
    rfl
  rw [h]
  constructor
  · intro e; injection e with e; injection e with _ e; injection e with e _; injection e with e; exact e.symm
  · rintro rfl; rfl

/-- the variables of an example: a dictionary and a list -/
def rvars : Dict Str Val := [(c!"long", .dict [(.s c!"Ge", .list [.str c!"GigabitEthernet", .str c!"Gi"]), (.s c!"Po", .str c!"Port-Channel")]),
  (c!"junk", .list [.str c!"\"", .int 3, .str c!"'"])]

/-- the hypotheses are met, and the text of the documentation -/
example : argPairs rvars c!"" c!"long" = [(c!"GigabitEthernet", c!"Ge"), (c!"Gi", c!"Ge"), (c!"Port-Channel", c!"Po")] ∧
    argPairs rvars c!"-" c!"junk" = [(c!"\"", c!"-"), (c!"'", c!"-")] ∧ argPairs rvars c!"-" c!"abc" = [(c!"abc", c!"-")] := by
  refine ⟨?_, ?_, ?_⟩ <;> decide

example (W : World) : builtin W (fn c!"replaceall" [.str c!"Ge", .str c!"long"]) ⟨rvars, []⟩ (.str c!"GigabitEthernet3/Gi1") =
    .ok (⟨rvars, []⟩, .str c!"Ge3/Ge1", .nothing) := by
  refine (C100_replaceall W ⟨rvars, []⟩ _ c!"Ge" [c!"long"] (by simp) ?_ ?_ _).2 ?_
  · intro old ho d hd kv hkv
    rw [List.mem_singleton.1 ho] at hd
    have e : Dict.get? rvars c!"long" = some (.dict [(.s c!"Ge", .list [.str c!"GigabitEthernet", .str c!"Gi"]), (.s c!"Po", .str c!"Port-Channel")]) := by decide
    rw [show (Env.vars ⟨rvars, []⟩) = rvars from rfl, e] at hd
    injection hd with hd; injection hd with hd; subst hd
    simp only [List.mem_cons, List.not_mem_nil, or_false] at hkv
    rcases hkv with rfl | rfl <;> exact ⟨_, rfl⟩
  · decide
  · refine (ReplacedSeq_iff _ (by decide) _ _).2 (by decide)

/-! ## C101 append, prepend, join -/

/-- C101. `append` and `prepend` put a text at the end or at the beginning: of a string, or as an item of a list. The argument is
taken from the template variable of that name if there is one. -/
theorem C101_append_prepend (W : World) (env : Env) (arg : Str) :
    (∀ s w, varValue env.vars arg = .str w →
      builtin W (fn c!"append" [.str arg]) env (.str s) = .ok (env, .str (s ++ w), .nothing) ∧
      builtin W (fn c!"prepend" [.str arg]) env (.str s) = .ok (env, .str (w ++ s), .nothing)) ∧
    (∀ xs, builtin W (fn c!"append" [.str arg]) env (.list xs) = .ok (env, .list (xs ++ [varValue env.vars arg]), .nothing) ∧
      builtin W (fn c!"prepend" [.str arg]) env (.list xs) = .ok (env, .list (varValue env.vars arg :: xs), .nothing)) := by
  have hv : varOr env.vars (.str arg) = varValue env.vars arg := by
    unfold varOr varValue; dsimp only; cases Dict.get? env.vars arg <;> rfl
  refine ⟨fun s w hw => ⟨?_, ?_⟩, fun xs => ⟨?_, ?_⟩⟩
  · refine builtin_named W _ _ env _ (by decide) (by decide) (by decide) rfl (.str _, .nothing) ?_
    show (do let v ← (do pure (Val.str (s ++ (← reqStr (varOr env.vars (.str arg))))) : PyM Val); pure (v, Flag.nothing) : PyM _) = _
    rw [hv, hw]; rfl
  · refine builtin_named W _ _ env _ (by decide) (by decide) (by decide) rfl (.str _, .nothing) ?_
    show (do let v ← (do pure (Val.str ((← reqStr (varOr env.vars (.str arg))) ++ s)) : PyM Val); pure (v, Flag.nothing) : PyM _) = _
    rw [hv, hw]; rfl
  · refine builtin_named W _ _ env _ (by decide) (by decide) (by decide) rfl (.list _, .nothing) ?_
    rw [← hv]; rfl
  · refine builtin_named W _ _ env _ (by decide) (by decide) (by decide) rfl (.list _, .nothing) ?_
    rw [← hv]; rfl

/-- C101. Global variables are not used, although the code looks them up: the value is overwritten by the next statement. A name that
is a global variable only is taken literally. -/
theorem C101_global_ignored (W : World) (vars gvars : Dict Str Val) (arg s : Str) (h : Dict.get? vars arg = none) :
    builtin W (fn c!"append" [.str arg]) ⟨vars, gvars⟩ (.str s) = .ok (⟨vars, gvars⟩, .str (s ++ arg), .nothing) :=
  ((C101_append_prepend W ⟨vars, gvars⟩ arg).1 s arg (by simp [varValue, h])).1

/-- C101. `join` turns a list of strings into one string with the separator between them and leaves other values alone. -/
theorem C101_join (W : World) (env : Env) (sep : Str) (ss : List Str) (data : Val) (hd : ∀ xs, data ≠ .list xs) :
    builtin W (fn c!"join" [.str sep]) env (.list (ss.map .str)) = .ok (env, .str (sep.intercalate ss), .nothing) ∧
    builtin W (fn c!"join" [.str sep]) env data = .ok (env, data, .nothing) := by
  have hj : ∀ ss : List Str, join sep ss = sep.intercalate ss := by
    intro ss
    induction ss with
    | nil => rfl
    | cons a ss ih =>
      cases ss with
      | nil => simp [join, List.intercalate]
      | cons b ss => rw [join, ih]; simp [List.intercalate, List.intersperse]
  constructor
  · refine builtin_named W _ _ env _ (by decide) (by decide) (by decide) rfl (.str _, .nothing) ?_
    show (do let v ← (do pure (Val.str (join sep (← allStrs (ss.map Val.str)))) : PyM Val); pure (v, Flag.nothing) : PyM _) = _
    rw [allStrs_map, ← hj]; rfl
  · refine builtin_named W _ _ env _ (by decide) (by decide) (by decide) rfl (data, .nothing) ?_
    cases data with
    | list xs => exact absurd rfl (hd xs)
    | _ => rfl

example (W : World) : builtin W (fn c!"append" [.str c!"domain"]) ⟨[(c!"domain", .str c!".lab")], []⟩ (.str c!"sw1") =
    .ok (⟨[(c!"domain", .str c!".lab")], []⟩, .str c!"sw1.lab", .nothing) :=
  ((C101_append_prepend W _ c!"domain").1 c!"sw1" c!".lab" (by decide)).1

example : varValue [(c!"domain", .str c!".lab")] c!"x" = .str c!"x" ∧ (c!", ").intercalate [c!"1", c!"2", c!"3"] = c!"1, 2, 3" := by decide

/-! ## C102 set, let, copy -/

/-- C102. `set(value)` on a line (the loader adds the text of the line as an argument): if the matched text, without
white space at the end, is that line, the match gets the value - of the template variable of that name, else of the global
variable of that name, else the text itself; if it is some other text the match is rejected. -/
theorem C102_set (W : World) (env : Env) (data value line : Str) :
    builtin W ⟨c!"set", [.str value], [(c!"match_line", .str line)]⟩ env (.str data) =
      if rstrip data = line then
        .ok (env, (match Dict.get? env.vars value with
          | some v => v
          | none => varValue env.gvars value), .nothing)
      else .ok (env, .str data, .no) := by
  by_cases h : rstrip data = line
  · rw [if_pos h]
    refine builtin_kw W _ _ _ env _ (by decide) (by decide) (by decide) rfl (_, .nothing) ?_
    show (.ok (setFn env data (.str value) line) : PyM _) = _
    unfold setFn varValue
    rw [if_pos h]
    rfl
  · rw [if_neg h]
    refine builtin_kw W _ _ _ env _ (by decide) (by decide) (by decide) rfl (.str data, .no) ?_
    show (.ok (setFn env data (.str value) line) : PyM _) = _
    unfold setFn
    rw [if_neg h]

/-- C102. `let(name, value)` adds a variable and keeps the match, `let(value)` replaces the match, `copy(name)` adds a variable with the
matched value. Every value but the code's own marker can be given. -/
theorem C102_let_copy (W : World) (env : Env) (data value : Val) (name : Str) (hv : value ≠ .str c!"__Undefined_Var_Value__") :
    builtin W (fn c!"let" [.str name, value]) env data = .ok (env, data, .newField [(.s name, value)]) ∧
    builtin W (fn c!"let" [value]) env data = .ok (env, value, .nothing) ∧
    builtin W (fn c!"copy" [.str name]) env data = .ok (env, data, .newField [(.s name, data)]) := by
  refine ⟨?_, ?_, ?_⟩
  · refine builtin_named W _ _ env _ (by decide) (by decide) (by decide) rfl (data, .newField _) ?_
    show (if value = .str c!"__Undefined_Var_Value__" then (pure (.str name, .nothing) : PyM (Val × Flag))
      else pure (data, .newField [(.s name, value)])) = _
    rw [if_neg hv]; rfl
  · exact builtin_named W _ _ env _ (by decide) (by decide) (by decide) rfl (value, .nothing) rfl
  · exact builtin_named W _ _ env _ (by decide) (by decide) (by decide) rfl (data, .newField _) rfl

example (W : World) : builtin W ⟨c!"set", [.str c!"up"], [(c!"match_line", .str c!"\nno shutdown")]⟩ ⟨[(c!"up", .bool true)], []⟩ (.str c!"\nno shutdown  ") =
    .ok (⟨[(c!"up", .bool true)], []⟩, .bool true, .nothing) := by
  rw [C102_set, if_pos (by decide)]; rfl

/-! ## C103 checks -/

/-- C103. Checks of a matched text: `contains` holds iff one of the texts occurs in it, `exclude` iff the text does not occur, `equal`
iff it is the text, `notequal` iff it is not; the value is kept. -/
theorem C103_text_checks (W : World) (env : Env) (s p : Str) (ps : List Str) :
    (∃ b : Bool, builtin W (fn c!"contains" (ps.map .str)) env (.str s) = .ok (env, .str s, if b then .yes else .no) ∧
      (b = true ↔ ∃ q ∈ ps, q <:+: s)) ∧
    (∃ b : Bool, builtin W (fn c!"exclude" [.str p]) env (.str s) = .ok (env, .str s, if b then .yes else .no) ∧
      (b = true ↔ ¬ p <:+: s)) ∧
    (∃ b : Bool, builtin W (fn c!"equal" [.str p]) env (.str s) = .ok (env, .str s, if b then .yes else .no) ∧ (b = true ↔ s = p)) ∧
    (∃ b : Bool, builtin W (fn c!"notequal" [.str p]) env (.str s) = .ok (env, .str s, if b then .yes else .no) ∧ (b = true ↔ s ≠ p)) := by
  refine ⟨⟨ps.any (Py.contains s), ?_, ?_⟩, ⟨!Py.contains s p, ?_, ?_⟩, ⟨s == p, ?_, ?_⟩, ⟨!(s == p), ?_, ?_⟩⟩
  · refine builtin_named W _ _ env _ (by decide) (by decide) (by decide) rfl (.str s, chk (ps.any (Py.contains s))) ?_
    show (do let b ← containsAny (.str s) (ps.map Val.str); pure (Val.str s, chk b) : PyM _) = _
    have : containsAny (.str s) (ps.map Val.str) = .ok (ps.any (Py.contains s)) := by
      induction ps with
      | nil => rfl
      | cons q ps ih =>
        rw [List.map_cons, containsAny, ih, List.any_cons]
        show (if Py.contains s q = true then (pure true : PyM Bool) else .ok (ps.any (Py.contains s))) = _
        cases Py.contains s q <;> rfl
    rw [this]; rfl
  · simp [List.any_eq_true, contains_iff]
  · exact builtin_named W _ _ env _ (by decide) (by decide) (by decide) rfl (.str s, chk (!Py.contains s p)) rfl
  · rw [← contains_iff]; simp
  · exact builtin_named W _ _ env _ (by decide) (by decide) (by decide) rfl (.str s, chk (s == p)) (by
      show (.ok (Val.str s, chk (pyEq (.str s) (.str p))) : PyM _) = _
      simp [pyEq])
  · simp
  · exact builtin_named W _ _ env _ (by decide) (by decide) (by decide) rfl (.str s, chk (!(s == p))) (by
      show (.ok (Val.str s, chk (!pyEq (.str s) (.str p))) : PyM _) = _
      simp [pyEq])
  · simp

/-- C103. `void` always rejects, `raise` always ends the parsing with an exception, `to_list` wraps, `to_int` makes a number of a text that is
one and keeps any other text. -/
theorem C103_others (W : World) (env : Env) (data : Val) (m s : Str) (n : Int) :
    builtin W (fn c!"void" []) env data = .ok (env, data, .no) ∧
    builtin W (fn c!"raise" [.str m]) env data = .error .runtimeError ∧
    builtin W (fn c!"to_list" []) env data = .ok (env, .list [data], .nothing) ∧
    (intOfStr s = some n → builtin W (fn c!"to_int" []) env (.str s) = .ok (env, .int n, .nothing)) ∧
    (intOfStr s = none → builtin W (fn c!"to_int" []) env (.str s) = .ok (env, .str s, .nothing)) := by
  refine ⟨builtin_named W _ _ env _ (by decide) (by decide) (by decide) rfl (data, .no) rfl, rfl,
    builtin_named W _ _ env _ (by decide) (by decide) (by decide) rfl (.list [data], .nothing) rfl, ?_, ?_⟩
  · intro h
    refine builtin_named W _ _ env _ (by decide) (by decide) (by decide) rfl (.int n, .nothing) ?_
    show (.ok (match intOfStr s with | some n => Val.int n | none => .str s, Flag.nothing) : PyM _) = _
    rw [h]
  · intro h
    refine builtin_named W _ _ env _ (by decide) (by decide) (by decide) rfl (.str s, .nothing) ?_
    show (.ok (match intOfStr s with | some n => Val.int n | none => .str s, Flag.nothing) : PyM _) = _
    rw [h]

example : intOfStr c!" -42 " = some (-42) ∧ intOfStr c!"4x" = none := by decide

/-! ## C104 lookups -/

/-- the call `name(args, add_field=field)` -/
def fnAdd (name : Str) (args : List Val) (field : Str) : FnCall := ⟨name, args, [(c!"add_field", .str field)]⟩

/-- names of a path, written with dots -/
def dots (path : List Str) : Str := join ['.'] path

theorem lookupNames_dots (path : List Str) (hne : path ≠ []) (hp : ∀ n ∈ path, '.' ∉ n ∧ strip n = n) : lookupNames (dots path) = path := by
  unfold lookupNames dots
  rw [split_char, splitC_join '.' path hne (fun n hn => (hp n hn).1)]
  induction path with
  | nil => rfl
  | cons a as ih =>
    rw [List.map_cons, (hp a (by simp)).2]
    cases as with
    | nil => rfl
    | cons b bs => rw [ih (by simp) (fun n hn => hp n (by simp [hn]))]

theorem lookupPath_under (v w : Val) (path : List Str) (h : under v path = some w) : lookupPath v path = .ok w := by
  induction path generalizing v with
  | nil => simp only [under, Option.some.injEq] at h; subst h; cases v <;> rfl
  | cons k ks ih =>
    cases v with
    | dict d =>
      rw [under] at h
      rw [lookupPath]
      cases hg : Dict.get? d (.s k) with
      | none => rw [hg] at h; cases h
      | some x => rw [hg] at h; exact ih x h
    | _ => rw [under] at h <;> first | cases h | (intro d e; cases e)

theorem dots_truthy (path : List Str) (hne : path ≠ []) (hp : ∀ n ∈ path, n ≠ []) : (Val.str (dots path)).truthy = true := by
  cases path with
  | nil => exact absurd rfl hne
  | cons a as =>
    have : dots (a :: as) ≠ [] := by
      unfold dots
      cases as with
      | nil => simpa [join] using hp a (by simp)
      | cons b bs => simp [join]
    cases h : dots (a :: as) with
    | nil => exact absurd h this
    | cons c cs => rfl

/-- C104. `lookup("a.b")` takes the value of the matched text from the table `b` in `a`: it replaces the match, or with
`add_field` becomes a new variable; a text that is not in the table leaves the match as it is. -/
theorem C104_lookup (W : World) (env : Env) (path : List Str) (hne : path ≠ []) (hp : ∀ n ∈ path, n ≠ [] ∧ '.' ∉ n ∧ strip n = n)
    (table : Dict Key Val) (ht : under W.lookups path = some (.dict table)) (s field : Str) :
    (∀ v, Dict.get? table (.s s) = some v →
      builtin W (fn c!"lookup" [.str (dots path)]) env (.str s) = .ok (env, v, .nothing) ∧
      builtin W (fnAdd c!"lookup" [.str (dots path)] field) env (.str s) = .ok (env, .str s, .newField [(.s field, v)])) ∧
    (Dict.get? table (.s s) = none →
      builtin W (fn c!"lookup" [.str (dots path)]) env (.str s) = .ok (env, .str s, .nothing) ∧
      builtin W (fnAdd c!"lookup" [.str (dots path)] field) env (.str s) = .ok (env, .str s, .nothing)) := by
  have hn := lookupNames_dots path hne (fun n h => (hp n h).2)
  have htr := dots_truthy path hne (fun n h => (hp n h).1)
  have hl : ∀ af, lookup W.lookups (dots path) af (.str s) = match Dict.get? table (.s s) with
      | none => .ok (.str s, .nothing)
      | some v => found af (.str s) v := by
    intro af
    unfold lookup lookupIn
    rw [hn, lookupPath_under _ _ _ ht]
    show (do
      match ← (do pure (Dict.get? table (.s s)) : PyM (Option Val)) with
      | none => pure (Val.str s, Flag.nothing)
      | some v => found af (.str s) v : PyM _) = _
    cases Dict.get? table (.s s) <;> rfl
  have he : ∀ kw, lookupElsewhere ⟨c!"lookup", [.str (dots path)], kw⟩ = false := by
    intro kw
    unfold lookupElsewhere
    cases hb : bindArgs lookupParams ⟨c!"lookup", [.str (dots path)], kw⟩ with
    | error e => simp
    | ok as =>
      have h0 : as.getD 0 none = some (.str (dots path)) := by
        unfold bindArgs at hb
        split at hb
        · cases hb
        · injection hb with hb; rw [← hb]; rfl
      simp only [h0, Option.any_some, htr]; simp
  have h1 : ∀ (r : Val × Flag), lookup W.lookups (dots path) none (.str s) = .ok r →
      builtin W (fn c!"lookup" [.str (dots path)]) env (.str s) = .ok (env, r.1, r.2) := by
    intro r hr
    refine builtin_named W _ _ env _ (by decide) (by decide) (by decide) (he _) r ?_
    show (if (Val.str (dots path)).truthy = true then lookup W.lookups (dots path) none (.str s) else pure (.str s, .nothing)) = _
    rw [if_pos htr, hr]
  have h2 : ∀ (r : Val × Flag), lookup W.lookups (dots path) (some (.str field)) (.str s) = .ok r →
      builtin W (fnAdd c!"lookup" [.str (dots path)] field) env (.str s) = .ok (env, r.1, r.2) := by
    intro r hr
    refine builtin_kw W _ _ _ env _ (by decide) (by decide) (by decide) (he _) r ?_
    show (if (Val.str (dots path)).truthy = true then lookup W.lookups (dots path) (some (.str field)) (.str s) else pure (.str s, .nothing)) = _
    rw [if_pos htr, hr]
  constructor
  · intro v hv
    exact ⟨h1 (v, .nothing) (by rw [hl, hv]; rfl), h2 (.str s, .newField [(.s field, v)]) (by rw [hl, hv]; rfl)⟩
  · intro hv
    exact ⟨h1 (.str s, .nothing) (by rw [hl, hv]), h2 (.str s, .nothing) (by rw [hl, hv])⟩

theorem rlookupFind_first (s : Str) (pre post : List (Key × Val)) (k : Str) (v : Val)
    (hpre : ∀ kv ∈ pre, ∃ k', kv.1 = Key.s k' ∧ ¬ k' <:+: s) (hk : k <:+: s) :
    rlookupFind (.str s) (pre ++ (.s k, v) :: post) = .ok (some v) := by
  induction pre with
  | nil =>
    rw [List.nil_append, rlookupFind]
    show (if Py.contains s k = true then (pure (some v) : PyM (Option Val)) else _) = _
    rw [if_pos ((contains_iff s k).2 hk)]; rfl
  | cons kv pre ih =>
    obtain ⟨k', hk', hn⟩ := hpre kv (by simp)
    obtain ⟨key, w⟩ := kv
    simp only at hk'; subst hk'
    rw [List.cons_append, rlookupFind]
    show (if Py.contains s k' = true then (pure (some w) : PyM (Option Val)) else _) = _
    rw [if_neg (fun h => hn ((contains_iff s k').1 h))]
    exact ih (fun kv h => hpre kv (by simp [h]))

theorem rlookupFind_none (s : Str) (d : List (Key × Val)) (hd : ∀ kv ∈ d, ∃ k', kv.1 = Key.s k' ∧ ¬ k' <:+: s) :
    rlookupFind (.str s) d = .ok none := by
  induction d with
  | nil => rfl
  | cons kv d ih =>
    obtain ⟨k', hk', hn⟩ := hd kv (by simp)
    obtain ⟨key, w⟩ := kv
    simp only at hk'; subst hk'
    rw [rlookupFind]
    show (if Py.contains s k' = true then (pure (some w) : PyM (Option Val)) else _) = _
    rw [if_neg (fun h => hn ((contains_iff s k').1 h))]
    exact ih (fun kv h => hd kv (by simp [h]))

/-- C104. `rlookup` looks for a key inside the matched text: the first key of the table, in its order, that occurs in the text decides; if no
key occurs the match is left as it is. -/
theorem C104_rlookup (W : World) (env : Env) (path : List Str) (hne : path ≠ []) (hp : ∀ n ∈ path, '.' ∉ n ∧ strip n = n)
    (table : Dict Key Val) (ht : under W.lookups path = some (.dict table)) (s field : Str) :
    (∀ pre k v post, table = pre ++ (.s k, v) :: post → (∀ kv ∈ pre, ∃ k', kv.1 = Key.s k' ∧ ¬ k' <:+: s) → k <:+: s → v ≠ .none →
      builtin W (fn c!"rlookup" [.str (dots path)]) env (.str s) = .ok (env, v, .nothing) ∧
      builtin W (fnAdd c!"rlookup" [.str (dots path)] field) env (.str s) = .ok (env, .str s, .newField [(.s field, v)])) ∧
    ((∀ kv ∈ table, ∃ k', kv.1 = Key.s k' ∧ ¬ k' <:+: s) →
      builtin W (fn c!"rlookup" [.str (dots path)]) env (.str s) = .ok (env, .str s, .nothing) ∧
      builtin W (fnAdd c!"rlookup" [.str (dots path)] field) env (.str s) = .ok (env, .str s, .nothing)) := by
  have hn := lookupNames_dots path hne hp
  have hl : ∀ af o, rlookupFind (.str s) table = .ok o → rlookup W.lookups (dots path) af (.str s) = match o with
      | none => .ok (.str s, .nothing)
      | some .none => .ok (.str s, .nothing)
      | some v => found af (.str s) v := by
    intro af o ho
    unfold rlookup
    rw [hn, lookupPath_under _ _ _ ht]
    show (do
      match ← rlookupFind (.str s) table with
      | none => pure (Val.str s, Flag.nothing)
      | some .none => pure (Val.str s, Flag.nothing)
      | some v => found af (.str s) v : PyM _) = _
    rw [ho]
    rcases o with _ | v
    · rfl
    · cases v <;> rfl
  have h1 : ∀ (r : Val × Flag), rlookup W.lookups (dots path) none (.str s) = .ok r →
      builtin W (fn c!"rlookup" [.str (dots path)]) env (.str s) = .ok (env, r.1, r.2) := by
    intro r hr
    refine builtin_named W _ _ env _ (by decide) (by decide) (by decide) rfl r ?_
    show (do let r ← rlookup W.lookups (dots path) none (.str s); pure r) = _
    rw [hr]
  have h2 : ∀ (r : Val × Flag), rlookup W.lookups (dots path) (some (.str field)) (.str s) = .ok r →
      builtin W (fnAdd c!"rlookup" [.str (dots path)] field) env (.str s) = .ok (env, r.1, r.2) := by
    intro r hr
    refine builtin_kw W _ _ _ env _ (by decide) (by decide) (by decide) rfl r ?_
    show (do let r ← rlookup W.lookups (dots path) (some (.str field)) (.str s); pure r) = _
    rw [hr]
  constructor
  · intro pre k v post e hpre hk hv
    have ho := rlookupFind_first s pre post k v hpre hk
    rw [← e] at ho
    have hl := fun af => hl af _ ho
    constructor
    · refine h1 (v, .nothing) ?_
      rw [hl]; cases v <;> first | exact absurd rfl hv | rfl
    · refine h2 (.str s, .newField [(.s field, v)]) ?_
      rw [hl]; cases v <;> first | exact absurd rfl hv | rfl
  · intro hd
    have ho := rlookupFind_none s table hd
    exact ⟨h1 (.str s, .nothing) (by rw [hl _ _ ho]), h2 (.str s, .nothing) (by rw [hl _ _ ho])⟩

theorem patternsOf_strs (ps : List Str) : patternsOf (.list (ps.map .str)) = .ok ps := allStrs_map ps

theorem gpvFirst_none (s : Str) (rows : List (Str × List Str)) (h : ∀ r ∈ rows, ∀ p ∈ r.2, ¬ Globs p s) (post : List (Key × Val)) :
    gpvFirst s (rows.map (fun r => (Key.s r.1, Val.list (r.2.map .str))) ++ post) = gpvFirst s post := by
  induction rows with
  | nil => rfl
  | cons r rows ih =>
    rw [List.map_cons, List.cons_append, gpvFirst, patternsOf_strs]
    show (if r.2.any (fnmatch s) = true then _ else _) = _
    rw [if_neg, ih (fun r hr => h r (by simp [hr]))]
    intro ha
    obtain ⟨p, hp, hm⟩ := List.any_eq_true.1 ha
    exact h r (by simp) p hp ((fnmatch_iff s p).1 hm)

/-- C104. `gpvlookup` finds the first key one of whose glob patterns fits the matched text, or leaves the match as it is; with
`record` the keys found are saved as variable also when there are none. -/
theorem C104_gpvlookup (W : World) (env : Env) (path : List Str) (hne : path ≠ []) (hp : ∀ n ∈ path, '.' ∉ n ∧ strip n = n)
    (rows : List (Str × List Str)) (ht : under W.lookups path = some (.dict (rows.map (fun r => (Key.s r.1, Val.list (r.2.map .str))))))
    (s var : Str) :
    (∀ pre k ps post, rows = pre ++ (k, ps) :: post → (∀ r ∈ pre, ∀ p ∈ r.2, ¬ Globs p s) → (∃ p ∈ ps, Globs p s) →
      builtin W (fn c!"gpvlookup" [.str (dots path)]) env (.str s) = .ok (env, .list [.str k], .nothing)) ∧
    ((∀ r ∈ rows, ∀ p ∈ r.2, ¬ Globs p s) →
      builtin W (fn c!"gpvlookup" [.str (dots path)]) env (.str s) = .ok (env, .str s, .nothing) ∧
      builtin W ⟨c!"gpvlookup", [.str (dots path)], [(c!"record", .str var)]⟩ env (.str s) =
        .ok (⟨Dict.set env.vars var (.list []), Dict.set env.gvars var (.list [])⟩, .str s, .nothing)) := by
  have hn := lookupNames_dots path hne hp
  have hcall : ∀ rec_, gpvlookup W.lookups (dots path) none rec_ none env s = (do
      let fnd ← gpvFirst s (rows.map (fun r => (Key.s r.1, Val.list (r.2.map .str))))
      let env' ← match rec_.getD (.bool false) with
        | .bool false => pure env
        | v => do pure (record (← reqStr v) (.list fnd) env)
      if fnd.isEmpty then pure (env', .str s, .nothing)
      else do
        let r ← found none (.str s) (.list fnd)
        pure (env', r.1, r.2)) := by
    intro rec_
    unfold gpvlookup
    rw [hn, lookupPath_under _ _ _ ht]; rfl
  have hb : ∀ r, gpvlookup W.lookups (dots path) none none none env s = .ok r →
      builtin W (fn c!"gpvlookup" [.str (dots path)]) env (.str s) = .ok r := by
    intro r hr
    show (match gpvlookup W.lookups (dots path) none none none env s with
      | .error .keyError => callMethod W _ env (.str s)
      | r => r) = _
    rw [hr]
  constructor
  · intro pre k ps post e hpre hk
    refine hb _ ?_
    rw [hcall, e, List.map_append, gpvFirst_none s pre hpre, List.map_cons, gpvFirst, patternsOf_strs]
    have ha : ps.any (fnmatch s) = true := by
      obtain ⟨p, hp, hg⟩ := hk
      exact List.any_eq_true.2 ⟨p, hp, (fnmatch_iff s p).2 hg⟩
    show (do
      let fnd ← (if ps.any (fnmatch s) = true then (pure [keyVal (.s k)] : PyM (List Val)) else _)
      _ : PyM _) = _
    rw [if_pos ha]; rfl
  · intro h
    have hf : gpvFirst s (rows.map (fun r => (Key.s r.1, Val.list (r.2.map .str)))) = .ok [] := by
      have := gpvFirst_none s rows h []
      rw [List.append_nil] at this; rw [this]; rfl
    constructor
    · refine hb _ ?_
      rw [hcall, hf]; rfl
    · have hr : gpvlookup W.lookups (dots path) none (some (.str var)) none env s =
          .ok (⟨Dict.set env.vars var (.list []), Dict.set env.gvars var (.list [])⟩, .str s, .nothing) := by
        rw [hcall, hf]; rfl
      show (match gpvlookup W.lookups (dots path) none (some (.str var)) none env s with
        | .error .keyError => callMethod W _ env (.str s)
        | r => r) = _
      rw [hr]

/-- C104. With `multimatch` a key is listed once for each of its patterns that fits, so it can be listed twice. -/
theorem C104_multimatch_repeats (W : World) (env : Env) (hl : W.lookups = .dict [(.s c!"t", .dict [(.s c!"core", .list [.str c!"rtr-*", .str c!"*-core"])])]) :
    builtin W ⟨c!"gpvlookup", [.str c!"t"], [(c!"multimatch", .bool true)]⟩ env (.str c!"rtr-1-core") =
      .ok (env, .list [.str c!"core", .str c!"core"], .nothing) := by
  have : gpvlookup W.lookups c!"t" none none (some (.bool true)) env c!"rtr-1-core" = .ok (env, .list [.str c!"core", .str c!"core"], .nothing) := by
    rw [hl]
    have h : gpvAll c!"rtr-1-core" [(.s c!"core", .list [.str c!"rtr-*", .str c!"*-core"])] = .ok [.str c!"core", .str c!"core"] := by
      decide +kernel
    show (do
      let fnd ← gpvAll c!"rtr-1-core" [(.s c!"core", .list [.str c!"rtr-*", .str c!"*-core"])]
      let env' ← (pure env : PyM Env)
      if fnd.isEmpty then pure (env', .str c!"rtr-1-core", .nothing)
      else do
        let r ← found none (.str c!"rtr-1-core") (.list fnd)
        pure (env', r.1, r.2) : PyM _) = _
    rw [h]; rfl
  show (match gpvlookup W.lookups c!"t" none none (some (.bool true)) env c!"rtr-1-core" with
    | .error .keyError => callMethod W _ env (.str c!"rtr-1-core")
    | r => r) = _
  rw [this]

/-- the hypotheses are met: a table in a table -/
example : under (.dict [(.s c!"asn", .dict [(.s c!"private", .dict [(.s c!"65001", .str c!"CUST-1")])])]) [c!"asn", c!"private"] =
      some (.dict [(.s c!"65001", .str c!"CUST-1")]) ∧ dots [c!"asn", c!"private"] = c!"asn.private" ∧
    (∀ n ∈ [c!"asn", c!"private"], n ≠ [] ∧ '.' ∉ n ∧ strip n = n) := by
  refine ⟨?_, ?_, ?_⟩ <;> decide

example : Globs c!"rtr-*" c!"rtr-1" := .char _ _ _ (by decide) (by decide) (.char _ _ _ (by decide) (by decide) (.char _ _ _ (by decide)
  (by decide) (.char _ _ _ (by decide) (by decide) (.star c!"1" [] [] .nil))))

/-! ## C105 checks with regular expressions -/

/-- a match somewhere -/
def Somewhere (r : Re) (s : Str) : Prop := ∃ k, k ≤ s.length ∧ Re.run r (s.drop k) ≠ []

/-- a match somewhere that ends at the end of the text, or before the newline at its end -/
def SomewhereEnding (r : Re) (s : Str) : Prop :=
  ∃ k, k ≤ s.length ∧ ∃ h ∈ Re.run r (s.drop k), h.2.1 = [] ∨ h.2.1 = ['\n']

theorem search_iff (r : Re) (s : Str) : (Re.search r s).isSome = true ↔ Somewhere r s := by
  unfold Re.search Re.finditer Somewhere
  have : ∀ (s : Str) (pos : Nat), (Re.scan r s pos 0).head?.isSome = true ↔ ∃ k, k ≤ s.length ∧ Re.run r (s.drop k) ≠ [] := by
    intro s
    induction s with
    | nil =>
      intro pos
      rw [Re.scan]
      cases h : Re.run r [] with
      | nil => simp [h]
      | cons x xs => simp [h]
    | cons c cs ih =>
      intro pos
      rw [Re.scan]
      cases h : Re.run r (c :: cs) with
      | nil =>
        simp only
        rw [ih]
        constructor
        · rintro ⟨k, hk, hr⟩; exact ⟨k + 1, by simpa using hk, hr⟩
        · rintro ⟨k, hk, hr⟩
          cases k with
          | zero => exact absurd h hr
          | succ k => exact ⟨k, by simpa using hk, hr⟩
      | cons x xs =>
        simp only [List.head?_cons, Option.isSome_some, true_iff]
        exact ⟨0, by simp, by simp [h]⟩
  exact this s 0

theorem run_alts (ps : List Re) (hne : ps ≠ []) (s : Str) (h : Re.Hit) : h ∈ Re.run (alts ps) s ↔ ∃ p ∈ ps, h ∈ Re.run p s := by
  induction ps with
  | nil => exact absurd rfl hne
  | cons p ps ih =>
    cases ps with
    | nil => simp [alts]
    | cons q qs =>
      rw [show alts (p :: q :: qs) = .alt p (alts (q :: qs)) from rfl, Re.mem_alt, ih (by simp)]
      simp

theorem somewhere_alts (ps : List Re) (hne : ps ≠ []) (s : Str) : Somewhere (alts ps) s ↔ ∃ p ∈ ps, Somewhere p s := by
  unfold Somewhere
  constructor
  · rintro ⟨k, hk, h⟩
    obtain ⟨x, hx⟩ := List.exists_mem_of_ne_nil _ h
    obtain ⟨p, hp, hx⟩ := (run_alts ps hne _ _).1 hx
    exact ⟨p, hp, k, hk, List.ne_nil_of_mem hx⟩
  · rintro ⟨p, hp, k, hk, h⟩
    obtain ⟨x, hx⟩ := List.exists_mem_of_ne_nil _ h
    exact ⟨k, hk, List.ne_nil_of_mem ((run_alts ps hne _ _).2 ⟨p, hp, hx⟩)⟩

theorem startsRe_iff (p : Re) (ps : List Re) (s : Str) :
    startsRe (p :: ps) s = true ↔ Re.run p s ≠ [] ∨ ∃ q ∈ ps, Somewhere q s := by
  cases ps with
  | nil => simp [startsRe]
  | cons q qs =>
    rw [startsRe, Bool.or_eq_true]
    · rw [searchRe, search_iff, somewhere_alts _ (by simp)]
      simp
    · intro e; cases e

theorem seq_eos (p : Re) (s : Str) : Re.run (.seq p .eos) s ≠ [] ↔ ∃ h ∈ Re.run p s, h.2.1 = [] ∨ h.2.1 = ['\n'] := by
  constructor
  · intro h
    obtain ⟨x, hx⟩ := List.exists_mem_of_ne_nil _ h
    obtain ⟨h1, m1, h2, m2, _⟩ := (Re.mem_seq _ _ _ _).1 hx
    refine ⟨h1, m1, ?_⟩
    simp only [Re.run] at m2
    split at m2
    · rename_i he; simpa using he
    · cases m2
  · rintro ⟨h, hm, he⟩
    refine List.ne_nil_of_mem ((Re.mem_seq _ _ _ _).2 ⟨h, hm, ([], h.2.1, []), ?_, rfl⟩)
    simp only [Re.run]
    rw [if_pos (by simpa using he)]
    simp

theorem endsRe_iff (ps : List Re) (p : Re) (s : Str) :
    endsRe (ps ++ [p]) s = true ↔ SomewhereEnding p s ∨ ∃ q ∈ ps, Somewhere q s := by
  have hd : dollar (ps ++ [p]) = ps ++ [.seq p .eos] := by
    induction ps with
    | nil => rfl
    | cons q qs ih =>
      rw [List.cons_append, List.cons_append, ← ih]
      cases h : qs ++ [p] with
      | nil => simp at h
      | cons a as => rfl
  unfold endsRe searchRe
  rw [hd, search_iff, somewhere_alts _ (by simp)]
  constructor
  · rintro ⟨q, hq, hs⟩
    rcases List.mem_append.1 hq with hq | hq
    · exact .inr ⟨q, hq, hs⟩
    · rw [List.mem_singleton.1 hq] at hs
      obtain ⟨k, hk, h⟩ := hs
      exact .inl ⟨k, hk, (seq_eos p _).1 h⟩
  · rintro (⟨k, hk, h⟩ | ⟨q, hq, hs⟩)
    · exact ⟨_, by simp, k, hk, (seq_eos p _).2 h⟩
    · exact ⟨q, by simp [hq], hs⟩

theorem re_call (W : World) (env : Env) (name pat s : Str) (ps : List Re) (hx : W.rx pat = .ok ps) (test : List Re → Str → Bool)
    (h1 : name ≠ c!"count") (h2 : name ≠ c!"record") (h3 : pureNames.contains name = true) (h4 : lookupElsewhere (fn name [.str pat]) = false)
    (hc : callPure W (fn name [.str pat]) env (.str s) = reCheck W (fn name [.str pat]) (.str s) test) :
    builtin W (fn name [.str pat]) env (.str s) = .ok (env, .str s, if test ps s then .yes else .no) := by
  refine builtin_named W _ _ env _ h1 h2 h3 h4 (.str s, chk (test ps s)) ?_
  rw [hc]
  show (do let ps ← W.rx pat; pure (Val.str s, chk (test ps s)) : PyM _) = _
  rw [hx]; rfl

/-- C105. For a pattern without `|` at its top level: `contains_re` holds iff the pattern matches somewhere, `startswith_re` iff it matches at the
beginning, `endswith_re` iff a match ends at the end of the text; `exclude_re`, `notstartswith_re` and `notendswith_re` are their
negations. The value is kept. -/
theorem C105_regex_checks_partial (W : World) (env : Env) (pat s : Str) (p : Re) (hx : W.rx pat = .ok [p]) :
    ∃ c b e : Bool, (c = true ↔ Somewhere p s) ∧ (b = true ↔ Re.run p s ≠ []) ∧ (e = true ↔ SomewhereEnding p s) ∧
      builtin W (fn c!"contains_re" [.str pat]) env (.str s) = .ok (env, .str s, if c then .yes else .no) ∧
      builtin W (fn c!"exclude_re" [.str pat]) env (.str s) = .ok (env, .str s, if c then .no else .yes) ∧
      builtin W (fn c!"startswith_re" [.str pat]) env (.str s) = .ok (env, .str s, if b then .yes else .no) ∧
      builtin W (fn c!"notstartswith_re" [.str pat]) env (.str s) = .ok (env, .str s, if b then .no else .yes) ∧
      builtin W (fn c!"endswith_re" [.str pat]) env (.str s) = .ok (env, .str s, if e then .yes else .no) ∧
      builtin W (fn c!"notendswith_re" [.str pat]) env (.str s) = .ok (env, .str s, if e then .no else .yes) := by
  refine ⟨searchRe [p] s, startsRe [p] s, endsRe [p] s, ?_, ?_, ?_, ?_, ?_, ?_, ?_, ?_, ?_⟩
  · exact search_iff p s
  · rw [startsRe_iff]; simp
  · have := endsRe_iff [] p s
    simpa using this
  · exact re_call W env _ pat s [p] hx searchRe (by decide) (by decide) (by decide) rfl rfl
  · rw [re_call W env _ pat s [p] hx (fun ps s => !searchRe ps s) (by decide) (by decide) (by decide) rfl rfl]
    cases searchRe [p] s <;> rfl
  · exact re_call W env _ pat s [p] hx startsRe (by decide) (by decide) (by decide) rfl rfl
  · rw [re_call W env _ pat s [p] hx (fun ps s => !startsRe ps s) (by decide) (by decide) (by decide) rfl rfl]
    cases startsRe [p] s <;> rfl
  · exact re_call W env _ pat s [p] hx endsRe (by decide) (by decide) (by decide) rfl rfl
  · rw [re_call W env _ pat s [p] hx (fun ps s => !endsRe ps s) (by decide) (by decide) (by decide) rfl rfl]
    cases endsRe [p] s <;> rfl

theorem re_keyword (W : World) (env : Env) (name pat s : Str) (ps : List Re) (hx : W.rx pat = .ok ps) (test : List Re → Str → Bool)
    (h1 : name ≠ c!"count") (h2 : name ≠ c!"record") (h3 : pureNames.contains name = true)
    (h4 : lookupElsewhere ⟨name, [], [(c!"pattern", .str pat)]⟩ = false)
    (hc : callPure W ⟨name, [], [(c!"pattern", .str pat)]⟩ env (.str s) = reCheck W ⟨name, [], [(c!"pattern", .str pat)]⟩ (.str s) test) :
    builtin W ⟨name, [], [(c!"pattern", .str pat)]⟩ env (.str s) = .ok (env, .str s, if test ps s then .yes else .no) := by
  refine builtin_pure W _ env _ h1 h2 h3 h4 (.str s, chk (test ps s)) ?_
  rw [hc]
  show (do let ps ← W.rx pat; pure (Val.str s, chk (test ps s)) : PyM _) = _
  rw [hx]; rfl

/-- C105. The pattern can be given by its name, as in `contains_re(pattern="Vl")`: it is the same check. -/
theorem C105_by_name (W : World) (env : Env) (pat s : Str) (ps : List Re) (hx : W.rx pat = .ok ps) (name : Str)
    (hn : name ∈ [c!"contains_re", c!"exclude_re", c!"startswith_re", c!"notstartswith_re", c!"endswith_re", c!"notendswith_re"]) :
    builtin W ⟨name, [], [(c!"pattern", .str pat)]⟩ env (.str s) = builtin W (fn name [.str pat]) env (.str s) := by
  simp only [List.mem_cons, List.not_mem_nil, or_false] at hn
  rcases hn with rfl | rfl | rfl | rfl | rfl | rfl
  · rw [re_keyword W env _ pat s ps hx searchRe (by decide) (by decide) (by decide) rfl rfl,
      re_call W env _ pat s ps hx searchRe (by decide) (by decide) (by decide) rfl rfl]
  · rw [re_keyword W env _ pat s ps hx (fun ps s => !searchRe ps s) (by decide) (by decide) (by decide) rfl rfl,
      re_call W env _ pat s ps hx (fun ps s => !searchRe ps s) (by decide) (by decide) (by decide) rfl rfl]
  · rw [re_keyword W env _ pat s ps hx startsRe (by decide) (by decide) (by decide) rfl rfl,
      re_call W env _ pat s ps hx startsRe (by decide) (by decide) (by decide) rfl rfl]
  · rw [re_keyword W env _ pat s ps hx (fun ps s => !startsRe ps s) (by decide) (by decide) (by decide) rfl rfl,
      re_call W env _ pat s ps hx (fun ps s => !startsRe ps s) (by decide) (by decide) (by decide) rfl rfl]
  · rw [re_keyword W env _ pat s ps hx endsRe (by decide) (by decide) (by decide) rfl rfl,
      re_call W env _ pat s ps hx endsRe (by decide) (by decide) (by decide) rfl rfl]
  · rw [re_keyword W env _ pat s ps hx (fun ps s => !endsRe ps s) (by decide) (by decide) (by decide) rfl rfl,
      re_call W env _ pat s ps hx (fun ps s => !endsRe ps s) (by decide) (by decide) (by decide) rfl rfl]

/-- C105 is false of the code for patterns with alternatives: `startswith_re("a|b")` looks for `a` at the beginning or `b` anywhere, and
`endswith_re("a|b")` for `a` anywhere or `b` at the end - for all alternatives and texts. -/
theorem C105_alternatives (W : World) (env : Env) (pat s : Str) (p q : Re) (hx : W.rx pat = .ok [p, q]) :
    (∃ b : Bool, builtin W (fn c!"startswith_re" [.str pat]) env (.str s) = .ok (env, .str s, if b then .yes else .no) ∧
      (b = true ↔ Re.run p s ≠ [] ∨ Somewhere q s)) ∧
    (∃ b : Bool, builtin W (fn c!"endswith_re" [.str pat]) env (.str s) = .ok (env, .str s, if b then .yes else .no) ∧
      (b = true ↔ SomewhereEnding q s ∨ Somewhere p s)) := by
  refine ⟨⟨startsRe [p, q] s, ?_, ?_⟩, ⟨endsRe [p, q] s, ?_, ?_⟩⟩
  · exact re_call W env _ pat s [p, q] hx startsRe (by decide) (by decide) (by decide) rfl rfl
  · rw [startsRe_iff]; simp
  · exact re_call W env _ pat s [p, q] hx endsRe (by decide) (by decide) (by decide) rfl rfl
  · have := endsRe_iff [p] q s
    simpa using this

/-- a world that knows two patterns -/
def reWorld : World := ⟨[], .dict [], fun _ _ => .ok none, fun _ => none, fun s =>
  if s = c!"Vlan|Lo" then .ok [Re.lits c!"Vlan", Re.lits c!"Lo"] else if s = c!"Vl" then .ok [Re.lits c!"Vl"] else .error .valueError, fun _ _ _ => .error .valueError, fun _ => none, fun _ => none, fun _ => false, fun _ => .none, [], .list []⟩

/-- `startswith_re("Vlan|Lo")` accepts a text that starts with neither -/
example (env : Env) : builtin reWorld (fn c!"startswith_re" [.str c!"Vlan|Lo"]) env (.str c!"notLo0") = .ok (env, .str c!"notLo0", .yes) ∧
    builtin reWorld (fn c!"startswith_re" [.str c!"Vl"]) env (.str c!"xVl") = .ok (env, .str c!"xVl", .no) := by
  constructor <;> rfl

example (env : Env) : builtin reWorld ⟨c!"startswith_re", [], [(c!"pattern", .str c!"Vl")]⟩ env (.str c!"Vl1") = .ok (env, .str c!"Vl1", .yes) := by
  rw [C105_by_name reWorld env c!"Vl" c!"Vl1" [Re.lits c!"Vl"] rfl c!"startswith_re" (by simp)]; rfl

/-! ## C106 resub, resuball -/

/-- C106. `resub(old, new, count=n)` replaces the leftmost `n` matches of the regular expression (all if `n` is 0), for every
expression whose matches are not empty; without `count` it is the first match. -/
theorem C106_resub (W : World) (env : Env) (data old new : Str) (r : Re) (n : Nat) (hv : Dict.get? env.vars old = none)
    (hx : W.rx old = .ok [r]) (hne : ∀ s, firstAt r s ≠ some []) (t : Str) :
    (builtin W (fn c!"resub" [.str old, .str new]) env (.str data) = .ok (env, .str t, .nothing) ↔ ReReplaced r new (some 1) data t) ∧
    (builtin W ⟨c!"resub", [.str old, .str new], [(c!"count", .int n)]⟩ env (.str data) = .ok (env, .str t, .nothing) ↔
      ReReplaced r new (if n = 0 then none else some n) data t) := by
  have hs : ∀ k : Int, resub W.rx env.vars data old new k = .ok (subN r new data 0 (countOf k)) := by
    intro k
    unfold resub
    rw [hv, hx]; rfl
  have hc : countOf n = if n = 0 then none else some n := by
    unfold countOf
    by_cases h : n = 0 <;> simp [h]
  constructor
  · rw [ReReplaced_iff r new hne]
    have h : builtin W (fn c!"resub" [.str old, .str new]) env (.str data) = .ok (env, .str (subN r new data 0 (some 1)), .nothing) := by
      refine builtin_named W _ _ env _ (by decide) (by decide) (by decide) rfl (.str _, .nothing) ?_
      show (do let v ← resub W.rx env.vars data old new 1; pure (Val.str v, Flag.nothing) : PyM _) = _
      rw [hs]; rfl
    rw [h]
    constructor
    · intro e; injection e with e; injection e with _ e; injection e with e _; injection e with e; exact e.symm
    · rintro rfl; rfl
  · rw [ReReplaced_iff r new hne]
    have h : builtin W ⟨c!"resub", [.str old, .str new], [(c!"count", .int n)]⟩ env (.str data) =
        .ok (env, .str (subN r new data 0 (if n = 0 then none else some n)), .nothing) := by
      refine builtin_kw W _ _ _ env _ (by decide) (by decide) (by decide) rfl (.str _, .nothing) ?_
      show (do let v ← resub W.rx env.vars data old new n; pure (Val.str v, Flag.nothing) : PyM _) = _
      rw [hs, hc]; rfl
    rw [h]
    constructor
    · intro e; injection e with e; injection e with _ e; injection e with e _; injection e with e; exact e.symm
    · rintro rfl; rfl

theorem lits_ne (w : Str) (hw : w ≠ []) (s : Str) : firstAt (Re.lits w) s ≠ some [] := by
  rw [firstAt_lits]
  split
  · intro e; injection e with e; exact hw e
  · intro e; cases e

/-- all matches of a literal text are its occurrences -/
theorem ReReplaced_lits (w new s t : Str) (hw : w ≠ []) : ReReplaced (Re.lits w) new none s t ↔ Replaced w new s t := by
  have hto : ∀ s t, Replaced w new s t → ReReplaced (Re.lits w) new none s t := by
    intro s t h
    induction h with
    | none s h =>
      refine .none _ s ?_
      intro k hk
      rw [firstAt_lits, if_neg]
      intro hp
      exact h (hp.isInfix.trans (List.drop_suffix k s).isInfix)
    | next a b t hk hr ih =>
      refine .next none a w b t (by simp) ?_ ?_ ih
      · intro k hk'
        rw [firstAt_lits, if_neg (hk k hk')]
      · rw [firstAt_lits, if_pos ⟨b, rfl⟩]
  constructor
  · intro h
    obtain ⟨t', ht'⟩ := Replaced_total w new hw s.length s (Nat.le_refl _)
    have h1 := (ReReplaced_iff _ new (lits_ne w hw) none s t).1 h
    have h2 := (ReReplaced_iff _ new (lits_ne w hw) none s t').1 (hto s t' ht')
    rw [h1, ← h2]; exact ht'
  · exact hto s t

/-- C106. A name of a template variable with a text stands for that text, taken literally: `resub` replaces its first occurrence, `resuball`
all of them, whatever characters are in it. -/
theorem C106_variable_is_literal (W : World) (env : Env) (data old new w : Str) (hw : w ≠ []) (hv : Dict.get? env.vars old = some (.str w)) (t : Str) :
    (builtin W (fn c!"resub" [.str old, .str new]) env (.str data) = .ok (env, .str t, .nothing) ↔
      (¬ w <:+: data ∧ t = data) ∨
      ∃ a b, data = a ++ w ++ b ∧ (∀ k, k < a.length → ¬ w <+: data.drop k) ∧ t = a ++ new ++ b) ∧
    (builtin W (fn c!"resuball" [.str new, .str old]) env (.str data) = .ok (env, .str t, .nothing) ↔ Replaced w new data t) := by
  have hne := lits_ne w hw
  constructor
  · have h : builtin W (fn c!"resub" [.str old, .str new]) env (.str data) =
        .ok (env, .str (subN (Re.lits w) new data 0 (some 1)), .nothing) := by
      refine builtin_named W _ _ env _ (by decide) (by decide) (by decide) rfl (.str _, .nothing) ?_
      show (do let v ← resub W.rx env.vars data old new 1; pure (Val.str v, Flag.nothing) : PyM _) = _
      unfold resub
      rw [hv]; rfl
    have h2 : builtin W (fn c!"resub" [.str old, .str new]) env (.str data) = .ok (env, .str t, .nothing) ↔
        ReReplaced (Re.lits w) new (some 1) data t := by
      rw [h, ReReplaced_iff _ new hne]
      constructor
      · intro e; injection e with e; injection e with _ e; injection e with e _; injection e with e; exact e.symm
      · rintro rfl; rfl
    rw [h2]
    constructor
    · intro hr
      by_cases hi : w <:+: data
      · obtain ⟨a, b, hd, hk⟩ := first_occ w data hi
        refine .inr ⟨a, b, hd, hk, ?_⟩
        rw [(ReReplaced_iff _ new hne _ _ _).1 hr]
        refine ((ReReplaced_iff _ new hne _ _ _).1 ?_).symm
        subst hd
        refine .next (some 1) a w b b (by simp) ?_ (by rw [firstAt_lits, if_pos ⟨b, rfl⟩]) (.limit b)
        intro k hk'
        rw [firstAt_lits, if_neg (hk k hk')]
      · refine .inl ⟨hi, ?_⟩
        rw [(ReReplaced_iff _ new hne _ _ _).1 hr]
        refine ((ReReplaced_iff _ new hne _ _ _).1 (.none _ data ?_)).symm
        intro k hk
        rw [firstAt_lits, if_neg]
        intro hp
        exact hi (hp.isInfix.trans (List.drop_suffix k data).isInfix)
    · rintro (⟨hi, rfl⟩ | ⟨a, b, hd, hk, rfl⟩)
      · refine .none _ _ ?_
        intro k hk
        rw [firstAt_lits, if_neg]
        intro hp
        exact hi (hp.isInfix.trans (List.drop_suffix k _).isInfix)
      · subst hd
        refine .next (some 1) a w b b (by simp) ?_ (by rw [firstAt_lits, if_pos ⟨b, rfl⟩]) (.limit b)
        intro k hk'
        rw [firstAt_lits, if_neg (hk k hk')]
  · have h : builtin W (fn c!"resuball" [.str new, .str old]) env (.str data) =
        .ok (env, .str (subN (Re.lits w) new data 0 none), .nothing) := by
      refine builtin_named W _ _ env _ (by decide) (by decide) (by decide) rfl (.str _, .nothing) ?_
      have h1 : resuball W.rx env.vars data [new, old] = .ok (subN (Re.lits w) new data 0 none) := by
        show (do
          let d ← resubOne W.rx env.vars new old data
          resubLoop W.rx env.vars new [] d : PyM Str) = _
        unfold resubOne
        rw [hv]; rfl
      show (do let v ← resuball W.rx env.vars data [new, old]; pure (Val.str v, Flag.nothing) : PyM _) = _
      rw [h1]; rfl
    rw [h, ← ReReplaced_lits w new data t hw, ReReplaced_iff _ new hne]
    constructor
    · intro e; injection e with e; injection e with _ e; injection e with e _; injection e with e; exact e.symm
    · rintro rfl; rfl

/-- the hypotheses are met: one or more digits -/
example : ReReplaced (Re.plus true (.cls .digit)) c!"N" (some 1) c!"a12b34" c!"aNb34" :=
  (ReReplaced_iff _ _ (by
    intro s h
    unfold firstAt at h
    cases hr : Re.run (Re.plus true (.cls .digit)) s with
    | nil => rw [hr] at h; cases h
    | cons x xs =>
      rw [hr] at h
      have hx : x.1 = [] := by simpa using h
      have := (Re.mem_plus_cls true .digit s x).1 (by rw [hr]; simp)
      exact this.1 hx) _ _ _).2 (by decide +kernel)

end Props
