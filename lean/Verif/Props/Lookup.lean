import Verif.Props.MatchStr
import Verif.Props.Ip
import Verif.Proofs.Save
import Verif.Proofs.Line2
/-!
# C128, C129: lookups in results, missing tables, `record`
-/

namespace Props
open Py Spec TTP TTP.MatchFn

/-! ## C128 -/

/-- along the path a dictionary is reached that lacks the next key -/
def Missing (v : Val) (path : List Str) : Prop := ∃ pre k post d, path = pre ++ k :: post ∧ under v pre = some (.dict d) ∧ Dict.get? d (.s k) = none

theorem lookupPath_empty (path : List Str) : lookupPath (.dict []) path = .ok (.dict []) := by
  induction path with
  | nil => rfl
  | cons k ks ih => rw [lookupPath]; exact ih

theorem lookupPath_append (v w : Val) (pre post : List Str) (h : under v pre = some w) : lookupPath v (pre ++ post) = lookupPath w post := by
  induction pre generalizing v with
  | nil => simp only [under, Option.some.injEq] at h; subst h; rfl
  | cons k ks ih =>
    cases v with
    | dict d =>
      rw [under] at h
      rw [List.cons_append, lookupPath]
      cases hg : Dict.get? d (.s k) with
      | none => rw [hg] at h; cases h
      | some x => rw [hg] at h; exact ih x h
    | _ => rw [under] at h <;> first | cases h | (intro d e; cases e)

theorem lookupPath_missing (v : Val) (path : List Str) (h : Missing v path) : lookupPath v path = .ok (.dict []) := by
  obtain ⟨pre, k, post, d, rfl, h1, h2⟩ := h
  rw [lookupPath_append _ _ _ _ h1, lookupPath, h2]
  exact lookupPath_empty post

/-- what a lookup of the text `s` does with the table below `path` in `src` -/
theorem lookupIn_table (src : Val) (path : List Str) (table : Dict Key Val) (ht : under src path = some (.dict table)) (af : Option Val) (s : Str) :
    lookupIn src path af (.str s) = match Dict.get? table (.s s) with
      | none => .ok (.str s, .nothing)
      | some v => found af (.str s) v := by
  unfold lookupIn
  rw [lookupPath_under _ _ _ ht]
  show (do
    match ← (do pure (Dict.get? table (.s s)) : PyM (Option Val)) with
    | none => pure (Val.str s, Flag.nothing)
    | some v => found af (.str s) v : PyM _) = _
  cases Dict.get? table (.s s) <;> rfl

theorem lookupIn_missing (src : Val) (path : List Str) (h : Missing src path) (af : Option Val) (s : Str) :
    lookupIn src path af (.str s) = .ok (.str s, .nothing) := by
  unfold lookupIn
  rw [lookupPath_missing _ _ h]
  rfl

/-- the names of a path: not empty, without dots and white space around -/
def PathNames (path : List Str) : Prop := ∀ n ∈ path, n ≠ [] ∧ '.' ∉ n ∧ strip n = n

/-- `lookup(template="a.b")` and `lookup(group="a.b")`, optionally with a field to add -/
def lookupCall (which : Str) (path : List Str) (field : Option Str) : FnCall :=
  ⟨c!"lookup", [], (which, .str (dots path)) :: match field with
    | some f => [(c!"add_field", .str f)]
    | none => []⟩

/-- C128. A lookup by name whose table does not exist leaves the match as it is. -/
theorem C128_no_such_table (W : World) (env : Env) (path : List Str) (hne : path ≠ []) (hp : PathNames path) (hm : Missing W.lookups path) (s : Str) :
    builtin W (fn c!"lookup" [.str (dots path)]) env (.str s) = .ok (env, .str s, .nothing) := by
  have hn := lookupNames_dots path hne (fun n h => (hp n h).2)
  have htr := dots_truthy path hne (fun n h => (hp n h).1)
  have he : lookupElsewhere ⟨c!"lookup", [.str (dots path)], []⟩ = false := by
    unfold lookupElsewhere
    have hb : bindArgs lookupParams ⟨c!"lookup", [.str (dots path)], []⟩ = .ok [some (.str (dots path)), none, none, none] := rfl
    simp only [hb]
    simp [htr]
  refine builtin_named W _ _ env _ (by decide) (by decide) (by decide) he (.str s, .nothing) ?_
  show (if (Val.str (dots path)).truthy = true then lookup W.lookups (dots path) none (.str s) else pure (.str s, .nothing)) = _
  rw [if_pos htr]
  unfold lookup
  rw [hn]
  exact lookupIn_missing _ _ hm _ _

/-- where a lookup elsewhere looks -/
def srcOf (W : World) (which : Str) (path : List Str) : PyM (Val × List Str) :=
  if which = c!"template" then tplSource W.templates path else grpSource W.results path

/-- the call of a lookup elsewhere -/
theorem elsewhere_call (W : World) (env : Env) (which : Str) (path : List Str) (field : Option Str) (hw : which = c!"template" ∨ which = c!"group")
    (hne : path ≠ []) (hp : PathNames path) (data : Val) :
    call W (lookupCall which path field) env data = (do
      let src ← srcOf W which path
      let r ← lookupIn src.1 src.2 (field.map Val.str) data
      pure (env, r.1, r.2)) := by
  have hn := lookupNames_dots path hne (fun n h => (hp n h).2)
  have htr := dots_truthy path hne (fun n h => (hp n h).1)
  have hb : bindArgs lookupParams (lookupCall which path field) = .ok [none, if which = c!"template" then some (.str (dots path)) else none,
      if which = c!"group" then some (.str (dots path)) else none, field.map Val.str] := by
    rcases hw with rfl | rfl <;> cases field <;> rfl
  have he : lookupElsewhere (lookupCall which path field) = true := by
    unfold lookupElsewhere
    simp only [hb]
    rcases hw with rfl | rfl <;> simp [lookupCall, htr]
  have e1 : (lookupCall which path field).name = c!"lookup" := rfl
  unfold call
  simp only [e1, he]
  have ho : lookupOther W (lookupCall which path field) data = (do
      let src ← srcOf W which path
      lookupIn src.1 src.2 (field.map Val.str) data) := by
    unfold lookupOther srcOf
    rw [hb]
    rcases hw with rfl | rfl
    · simp [ok_bind, htr, req, dataStr, hn, pure_ok]
    · simp [ok_bind, req, dataStr, hn, pure_ok]
  simp only [ho, bind_assoc]
  rfl

/-- the outcome of a lookup in `table`: the value of the text replaces the match or becomes a new field; a text that is no key leaves the match -/
def TableOutcome (table : Dict Key Val) (field : Option Str) (s : Str) : Val × Flag :=
  match Dict.get? table (.s s), field with
  | none, _ => (.str s, .nothing)
  | some v, none => (v, .nothing)
  | some v, some f => (.str s, .newField [(.s f, v)])

theorem outcome_eq (src : Val) (path : List Str) (table : Dict Key Val) (ht : under src path = some (.dict table)) (field : Option Str) (s : Str) :
    lookupIn src path (field.map Val.str) (.str s) = .ok (TableOutcome table field s) := by
  rw [lookupIn_table src path table ht]
  unfold TableOutcome
  cases Dict.get? table (.s s) <;> cases field <;> rfl

theorem builtin_of_call (W : World) (f : FnCall) (env : Env) (data : Val) (r : Env × Val × Flag) (h : call W f env data = .ok r) :
    builtin W f env data = .ok r := by
  unfold builtin; rw [h]

/-- the results a template lookup looks into: those of the first input, or of the template as a whole -/
def FirstResults (r v : Val) : Prop := (∃ l, r = .list (v :: l)) ∨ (r = v ∧ ∀ l, r ≠ .list l)

/-- C128. `lookup(template="name.a.b")` looks the matched text up in the table `a.b` of the results (of the first input) of the first template with
that name. -/
theorem C128_template_lookup (W : World) (env : Env) (name : Str) (path : List Str) (hp : PathNames (name :: path)) (field : Option Str)
    (before after : List (Str × Val)) (r v : Val) (ht : W.templates = before ++ (name, r) :: after) (hb : ∀ t ∈ before, t.1 ≠ name)
    (hr : FirstResults r v) (table : Dict Key Val) (hv : under v path = some (.dict table)) (s : Str) :
    builtin W (lookupCall c!"template" (name :: path) field) env (.str s) =
      .ok (env, (TableOutcome table field s).1, (TableOutcome table field s).2) := by
  apply builtin_of_call
  rw [elsewhere_call W env c!"template" (name :: path) field (Or.inl rfl) (by simp) hp]
  have hs : tplSource W.templates (name :: path) = .ok (v, path) := by
    rw [tplSource]
    have hf : W.templates.find? (fun t => t.1 == name) = some (name, r) := by
      rw [ht, List.find?_append, List.find?_eq_none.2 (by intro t h; simpa using hb t h)]
      simp
    rw [hf]
    rcases hr with ⟨l, rfl⟩ | ⟨rfl, hl⟩
    · rfl
    · cases r with
      | list l => exact absurd rfl (hl l)
      | _ => rfl
  rw [show srcOf W c!"template" (name :: path) = _ from hs, ok_bind]
  simp only
  rw [outcome_eq v path table hv]
  rfl

/-- C128. No template of that name: the match is left as it is. -/
theorem C128_no_such_template (W : World) (env : Env) (name : Str) (path : List Str) (hp : PathNames (name :: path)) (field : Option Str)
    (hb : ∀ t ∈ W.templates, t.1 ≠ name) (s : Str) :
    builtin W (lookupCall c!"template" (name :: path) field) env (.str s) = .ok (env, .str s, .nothing) := by
  apply builtin_of_call
  rw [elsewhere_call W env c!"template" (name :: path) field (Or.inl rfl) (by simp) hp]
  have hs : tplSource W.templates (name :: path) = .ok (.dict [], name :: path) := by
    rw [tplSource]
    rw [List.find?_eq_none.2 (by intro t h; simpa using hb t h)]
    rfl
  rw [show srcOf W c!"template" (name :: path) = _ from hs, ok_bind]
  simp only
  rw [lookupIn_missing (.dict []) (name :: path) ⟨[], name, path, [], rfl, rfl, rfl⟩]
  rfl

theorem grpFind_first (name : Str) (before after : List Val) (d : Dict Key Val) (v : Val)
    (hb : ∀ r ∈ before, ∃ e, r = .dict e ∧ Dict.get? e (.s name) = none) (hd : Dict.get? d (.s name) = some v) :
    grpFind name (before ++ .dict d :: after) = .ok (some v) := by
  induction before with
  | nil => rw [List.nil_append, grpFind, hd]; rfl
  | cons r rs ih =>
    obtain ⟨e, rfl, he⟩ := hb r (by simp)
    rw [List.cons_append, grpFind, he]
    exact ih (fun r hr => hb r (by simp [hr]))

theorem grpFind_none (name : Str) (rs : List Val) (hb : ∀ r ∈ rs, ∃ e, r = .dict e ∧ Dict.get? e (.s name) = none) :
    grpFind name rs = .ok none := by
  induction rs with
  | nil => rfl
  | cons r rs ih =>
    obtain ⟨e, rfl, he⟩ := hb r (by simp)
    rw [grpFind, he]
    exact ih (fun r hr => hb r (by simp [hr]))

/-- C128. `lookup(group="name.a.b")` looks the matched text up in the table `a.b` of the group `name` in the results of the first input that has
them. -/
theorem C128_group_lookup_partial (W : World) (env : Env) (name : Str) (path : List Str) (hp : PathNames (name :: path)) (field : Option Str)
    (before after : List Val) (d : Dict Key Val) (v : Val) (ht : W.results = .list (before ++ .dict d :: after))
    (hb : ∀ r ∈ before, ∃ e, r = .dict e ∧ Dict.get? e (.s name) = none) (hd : Dict.get? d (.s name) = some v)
    (table : Dict Key Val) (hv : under v path = some (.dict table)) (s : Str) :
    builtin W (lookupCall c!"group" (name :: path) field) env (.str s) =
      .ok (env, (TableOutcome table field s).1, (TableOutcome table field s).2) := by
  apply builtin_of_call
  rw [elsewhere_call W env c!"group" (name :: path) field (Or.inr rfl) (by simp) hp]
  have hs : grpSource W.results (name :: path) = .ok (v, path) := by
    unfold grpSource
    rw [ht]
    show (do match ← grpFind name (before ++ .dict d :: after) with
      | some v => pure (v, path)
      | none => pure (.dict [], path) : PyM (Val × List Str)) = _
    rw [grpFind_first name before after d v hb hd]; rfl
  rw [show srcOf W c!"group" (name :: path) = _ from hs, ok_bind]
  simp only
  rw [outcome_eq v path table hv]
  rfl

/-- C128. No results of such a group yet: the match is left as it is. -/
theorem C128_no_such_group (W : World) (env : Env) (name : Str) (path : List Str) (hp : PathNames (name :: path)) (field : Option Str)
    (rs : List Val) (ht : W.results = .list rs) (hb : ∀ r ∈ rs, ∃ e, r = .dict e ∧ Dict.get? e (.s name) = none) (s : Str) :
    builtin W (lookupCall c!"group" (name :: path) field) env (.str s) = .ok (env, .str s, .nothing) := by
  apply builtin_of_call
  rw [elsewhere_call W env c!"group" (name :: path) field (Or.inr rfl) (by simp) hp]
  have hs : grpSource W.results (name :: path) = .ok (.dict [], path) := by
    unfold grpSource
    rw [ht]
    show (do match ← grpFind name rs with
      | some v => pure (v, path)
      | none => pure (.dict [], path) : PyM (Val × List Str)) = _
    rw [grpFind_none name rs hb]; rfl
  rw [show srcOf W c!"group" (name :: path) = _ from hs, ok_bind]
  simp only
  have : lookupIn (.dict []) path (field.map Val.str) (.str s) = .ok (.str s, .nothing) := by
    unfold lookupIn
    rw [lookupPath_empty]; rfl
  rw [this]
  rfl

/-- C128 is false of the code for templates with `results="per_template"`: their results are one dictionary, and a lookup in any group that has
results (or whose name is part of the name of one that has) ends the parsing with a `TypeError`. -/
theorem C128_group_lookup_per_template (W : World) (env : Env) (name : Str) (path : List Str) (hp : PathNames (name :: path)) (field : Option Str)
    (key : Str) (v : Val) (rest : Dict Key Val) (hk : name <:+: key) (ht : W.results = .dict ((.s key, v) :: rest)) (s : Str) :
    builtin W (lookupCall c!"group" (name :: path) field) env (.str s) = .error .typeError := by
  have : call W (lookupCall c!"group" (name :: path) field) env (.str s) = .error .typeError := by
    rw [elsewhere_call W env c!"group" (name :: path) field (Or.inr rfl) (by simp) hp]
    have hs : grpSource W.results (name :: path) = .error .typeError := by
      unfold grpSource
      rw [ht]
      show (do match ← grpFind name (.str key :: _) with
        | some v => pure (v, path)
        | none => pure (.dict [], path) : PyM (Val × List Str)) = _
      rw [grpFind, if_pos ((contains_iff key name).2 hk)]; rfl
    rw [show srcOf W c!"group" (name :: path) = _ from hs]
    rfl
  unfold builtin; rw [this]

/-- a template `arp` with results for one input, and results of a group `macs` -/
def lkWorld : World := { W1 with
  templates := [(c!"arp", .list [.dict [(.s c!"entries", .dict [(.s c!"10.0.0.1", .str c!"aa:bb")])]])]
  results := .list [.dict [], .dict [(.s c!"macs", .dict [(.s c!"aa:bb", .str c!"Eth1")])]] }

example (env : Env) : builtin lkWorld (lookupCall c!"template" [c!"arp", c!"entries"] none) env (.str c!"10.0.0.1") = .ok (env, .str c!"aa:bb", .nothing) ∧
    builtin lkWorld (lookupCall c!"group" [c!"macs"] (some c!"port")) env (.str c!"aa:bb") =
      .ok (env, .str c!"aa:bb", .newField [(.s c!"port", .str c!"Eth1")]) ∧
    Missing lkWorld.lookups [c!"vlans"] := by
  refine ⟨?_, ?_, ⟨[], c!"vlans", [], [], rfl, rfl, rfl⟩⟩
  · exact C128_template_lookup lkWorld env c!"arp" [c!"entries"] (by unfold PathNames; decide) none [] [] _ _ rfl (by simp) (Or.inl ⟨[], rfl⟩)
      [(.s c!"10.0.0.1", .str c!"aa:bb")] rfl c!"10.0.0.1"
  · exact C128_group_lookup_partial lkWorld env c!"macs" [] (by unfold PathNames; decide) (some c!"port") [.dict []] [] _ _ rfl
      (by intro r hr; simp at hr; subst hr; exact ⟨[], rfl, rfl⟩) rfl [(.s c!"aa:bb", .str c!"Eth1")] rfl c!"aa:bb"

example (env : Env) : builtin { W1 with results := .dict [(.s c!"macs", .dict [])] } (lookupCall c!"group" [c!"macs"] none) env (.str c!"aa:bb") =
    .error .typeError :=
  C128_group_lookup_per_template _ env c!"macs" [] (by unfold PathNames; decide) none c!"macs" _ [] (List.infix_refl _) rfl _

/-! ## C129 -/

/-- C129. `record("name")` keeps the value and the match, and saves the value as variable `name` of the template and among the global
variables; all others stay. -/
theorem C129_record (W : World) (env : Env) (name : Str) (v : Val) :
    ∃ env', builtin W (fn c!"record" [.str name]) env v = .ok (env', v, .nothing) ∧
      (∀ n, Dict.get? env'.vars n = if n = name then some v else Dict.get? env.vars n) ∧
      (∀ n, Dict.get? env'.gvars n = if n = name then some v else Dict.get? env.gvars n) := by
  refine ⟨record name v env, rfl, ?_, ?_⟩
  · intro n
    by_cases h : n = name
    · subst h; rw [if_pos rfl]; exact Dict.get?_set_self _ _ _
    · rw [if_neg h]; exact Dict.get?_set_ne _ _ (fun e => h e.symm)
  · intro n
    by_cases h : n = name
    · subst h; rw [if_pos rfl]; exact Dict.get?_set_self _ _ _
    · rw [if_neg h]; exact Dict.get?_set_ne _ _ (fun e => h e.symm)

end Props
