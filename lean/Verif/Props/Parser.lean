import Verif.Proofs.Parser2
import Verif.Proofs.Line3
import Verif.Props.Machine
/-!
# C20, C21, C23, C24: which matches a group collects

`runRe mf text g 0 none env []` is the search for the matches of group `g` and its child groups in a text; its result is
the dictionary of matches by position, `sortRaw` puts the positions in order. `mf` are the match functions, `env` the
variables they may change.
-/

namespace Props
open Py Spec TTP

namespace Ex

/-- no match functions -/
def mf0 : MatchFns := fun _ env v => pure (env, v, .nothing)
/-- `only(x)` rejects everything but `x` -/
def mfOnly : MatchFns := fun f env v => pure (env, v, if f.args.head? = some v then .yes else .no)
/-- empty environment -/
def env0 : Env := ⟨[], []⟩
/-- a line with action -/
def lineOf (a : Action) (s : Str) : LineRx := { compileText s with action := a }
/-- `interfaces*` -/
def infoI : GInfo := ⟨0, (c!"interfaces*", 0), none, [c!"interfaces*"], [], [(.s c!"mtu", .str c!"1500")]⟩
/-- child `ips*` -/
def infoA : GInfo := ⟨1, (c!"interfaces*.ips*", 1), some (c!"interfaces*", 0), [c!"interfaces*", c!"ips*"], [], []⟩
/-- child group -/
def grpA (d : Bool) : Grp := .mk infoA [lineOf .start c!" ip {{ ip }}"] [] [] d []
/-- group with an ordinary line and a child -/
def grpI : Grp := .mk infoI [lineOf .start c!"interface {{ name }}"] [lineOf .add c!" mtu {{ mtu }}"] [] false [grpA false]
/-- group with an `_end_` line -/
def grpE : Grp := .mk infoI [lineOf .start c!"interface {{ name }}"] [] [lineOf .end_ c!"exit{{ _end_ }}"] false [grpA false]
/-- group with a default on its start line -/
def grpD : Grp := .mk infoI [lineOf .start c!"interface {{ name }}"] [] [] true [grpA false]
/-- text -/
def text1 : Str := dataText c!"ip 9\ninterface a\n mtu 1\n ip 1\ninterface b\n ip 2"
/-- text with an end -/
def text2 : Str := dataText c!"interface a\n ip 1\nexit\n ip 2"

instance : DecidableEq (Nat × Option (Dict Key Val)) := inferInstance
instance : DecidableEq (Nat × List (Nat × Option (Dict Key Val))) := inferInstance

/-- positions with lines and values -/
def view (r : PyM (Env × RawDict)) : Option (List (Nat × List (Nat × Option (Dict Key Val)))) :=
  match r with
  | .ok (_, d) => some ((sortRaw d).map (fun kv => (kv.1, kv.2.map (fun h => (h.info.uid, h.data)))))
  | .error _ => none

end Ex

/-! ## C20 -/

/-- C20. For every group (with any lines, `_end_`, defaults, children) and text: the positions that are processed are
strictly ascending, each position with at least one match occurs exactly once with all its matches, and there are no
others. -/
theorem C20_positions_ascending (mf : MatchFns) (text : Str) (g : Grp) (env env' : Env) (r : RawDict)
    (h : runRe mf text g 0 none env [] = .ok (env', r)) :
    (sortRaw r).Pairwise (fun a b => a.1 < b.1) ∧ (sortRaw r).Perm r ∧ (∀ kv ∈ sortRaw r, kv.2 ≠ []) ∧
    ∀ p x, Recorded r p x ↔ ∃ hs, (p, hs) ∈ sortRaw r ∧ x ∈ hs := by
  have hg := (runRe_entries mf text g 0 none env env' [] r good_nil (by intro e he; cases he) h).1
  refine ⟨sortRaw_strict r hg.1, sortRaw_perm r, fun kv hkv => hg.2 kv ((sortRaw_perm r).mem_iff.1 hkv), ?_⟩
  intro p x
  constructor
  · rintro ⟨hs, h1, h2⟩; exact ⟨hs, (sortRaw_perm r).mem_iff.2 h1, h2⟩
  · rintro ⟨hs, h1, h2⟩; exact ⟨hs, (sortRaw_perm r).mem_iff.1 h1, h2⟩

/-- C20, what is at a position: for a group without `_end_` lines and defaults on start lines (`Plain`, at every depth) the
search follows the order of `GrpLog` - start lines in template order over the window, then from the first start on
ordinary lines in template order, then child groups - and the matches at a position are those of this log at that
position, in its order. -/
theorem C20_same_position_template_order (mf : MatchFns) (text : Str) (g : Grp) (hp : g.Plain) (env env' : Env) (r : RawDict)
    (h : runRe mf text g 0 none env [] = .ok (env', r)) :
    ∃ log, GrpLog mf text g 0 env env' log ∧
      ∀ p hs, (p, hs) ∈ sortRaw r ↔ hs = atPos log p ∧ hs ≠ [] := by
  obtain ⟨log, h1, rfl⟩ := runRe_plain mf text g hp 0 env env' [] r h
  refine ⟨log, h1, fun p hs => ?_⟩
  rw [(sortRaw_perm _).mem_iff, mem_logDict]

example : Ex.grpI.Plain := by simp [Ex.grpI, Ex.grpA, Grp.Plain, PlainAll]

/-- the ordinary line and the child lines are put in text order -/
example : Ex.view (runRe Ex.mf0 Ex.text1 Ex.grpI 0 none Ex.env0 []) = some [
    (5, [(0, some [(.s c!"name", .str c!"a")])]), (17, [(0, some [(.s c!"mtu", .str c!"1")])]),
    (24, [(1, some [(.s c!"ip", .str c!"1")])]), (30, [(0, some [(.s c!"name", .str c!"b")])]),
    (42, [(1, some [(.s c!"ip", .str c!"2")])])] := by decide +kernel

/-! ## C21 -/

/-- C21, one variable: the functions reject the value iff there is a first function that rejects it, after the ones before
it passed the value on; the functions after it (`fs2`) have no say and do not run. -/
theorem C21_first_rejection (mf : MatchFns) (fs : List FnCall) (env env' : Env) (v : Val) (flags : Option (Dict Key Val)) :
    runMatchFns mf fs env v flags = .ok (env', none) ↔
      ∃ fs1 f fs2 e1 v1 fields, fs = fs1 ++ f :: fs2 ∧ Passes mf fs1 env v e1 v1 fields ∧ Rejects mf f e1 v1 env' := by
  induction fs generalizing env v flags with
  | nil =>
    simp only [runMatchFns, pure_ok, Except.ok.injEq, Prod.mk.injEq, reduceCtorEq, and_false, false_iff]
    rintro ⟨fs1, f, fs2, _, _, _, h, _⟩
    simp at h
  | cons f fs ih =>
    simp only [runMatchFns, bind_ok_iff]
    constructor
    · rintro ⟨⟨e1, v1, fl⟩, h1, h2⟩
      dsimp only at h2
      split at h2
      · rename_i hfl
        simp only [pure_ok, Except.ok.injEq, Prod.mk.injEq, and_true] at h2
        subst hfl h2
        exact ⟨[], f, fs, env, v, [], rfl, .nil _ _, v1, h1⟩
      · rename_i hfl
        obtain ⟨fs1, f', fs2, e2, v2, fields, h3, h4, h5⟩ := (ih e1 v1 _).1 h2
        cases fl with
        | no => exact absurd rfl hfl
        | nothing => exact ⟨f :: fs1, f', fs2, e2, v2, fields, by rw [h3]; rfl, .plain h1 (Or.inl rfl) h4, h5⟩
        | yes => exact ⟨f :: fs1, f', fs2, e2, v2, fields, by rw [h3]; rfl, .plain h1 (Or.inr rfl) h4, h5⟩
        | newField d => exact ⟨f :: fs1, f', fs2, e2, v2, d :: fields, by rw [h3]; rfl, .field h1 h4, h5⟩
    · rintro ⟨fs1, f', fs2, e2, v2, fields, h3, h4, h5⟩
      cases h4 with
      | nil =>
        simp only [List.nil_append, List.cons.injEq] at h3
        obtain ⟨rfl, rfl⟩ := h3
        obtain ⟨v', h5⟩ := h5
        exact ⟨_, h5, by simp⟩
      | plain h6 h7 h8 =>
        simp only [List.cons_append, List.cons.injEq] at h3
        obtain ⟨rfl, rfl⟩ := h3
        refine ⟨_, h6, ?_⟩
        dsimp only
        rw [if_neg (by rcases h7 with rfl | rfl <;> simp)]
        exact (ih _ _ _).2 ⟨_, _, _, _, _, _, rfl, h8, h5⟩
      | field h6 h8 =>
        simp only [List.cons_append, List.cons.injEq] at h3
        obtain ⟨rfl, rfl⟩ := h3
        refine ⟨_, h6, ?_⟩
        dsimp only
        rw [if_neg (by simp)]
        exact (ih _ _ _).2 ⟨_, _, _, _, _, _, rfl, h8, h5⟩

/-- C21, one variable: the value passes iff every function passes it on, from left to right; the result is what the last
one returned, and the additional fields are those asked for, a later function overriding an earlier one. -/
theorem C21_all_pass (mf : MatchFns) (fs : List FnCall) (env env' : Env) (v v' : Val) (fl : Option (Dict Key Val)) :
    runMatchFns mf fs env v none = .ok (env', some (v', fl)) ↔
      ∃ fields, Passes mf fs env v env' v' fields ∧
        fl = (match fields with
          | [] => none
          | d :: ds => some (ds.foldl Dict.update d)) := by
  have gen : ∀ (fs : List FnCall) (env : Env) (v : Val) (flags : Option (Dict Key Val)),
      runMatchFns mf fs env v flags = .ok (env', some (v', fl)) ↔
        ∃ fields, Passes mf fs env v env' v' fields ∧ fl = fields.foldl (fun a d => addFlag a (.newField d)) flags := by
    intro fs
    induction fs with
    | nil =>
      intro env v flags
      simp only [runMatchFns, pure_ok, Except.ok.injEq, Prod.mk.injEq, Option.some.injEq]
      constructor
      · rintro ⟨rfl, rfl, rfl⟩; exact ⟨[], .nil _ _, rfl⟩
      · rintro ⟨fields, h1, h2⟩; cases h1; exact ⟨rfl, rfl, h2.symm⟩
    | cons f fs ih =>
      intro env v flags
      simp only [runMatchFns, bind_ok_iff]
      constructor
      · rintro ⟨⟨e1, v1, g⟩, h1, h2⟩
        dsimp only at h2
        split at h2
        · simp at h2
        · rename_i hg
          obtain ⟨fields, h3, h4⟩ := (ih _ _ _).1 h2
          cases g with
          | no => exact absurd rfl hg
          | nothing => exact ⟨fields, .plain h1 (Or.inl rfl) h3, h4⟩
          | yes => exact ⟨fields, .plain h1 (Or.inr rfl) h3, h4⟩
          | newField d => exact ⟨d :: fields, .field h1 h3, h4⟩
      · rintro ⟨fields, h1, h2⟩
        cases h1 with
        | plain h6 h7 h8 =>
          refine ⟨_, h6, ?_⟩
          dsimp only
          rw [if_neg (by rcases h7 with rfl | rfl <;> simp)]
          refine (ih _ _ _).2 ⟨fields, h8, ?_⟩
          rcases h7 with rfl | rfl <;> exact h2
        | field h6 h8 =>
          refine ⟨_, h6, ?_⟩
          dsimp only
          rw [if_neg (by simp)]
          exact (ih _ _ _).2 ⟨_, h8, h2⟩
  rw [gen]
  have fold : ∀ (ds : List (Dict Key Val)) (d : Dict Key Val),
      ds.foldl (fun a d => addFlag a (.newField d)) (some d) = some (ds.foldl Dict.update d) := by
    intro ds
    induction ds with
    | nil => intro d; rfl
    | cons x ds ih => intro d; exact ih _
  constructor
  · rintro ⟨fields, h1, h2⟩
    refine ⟨fields, h1, ?_⟩
    cases fields with
    | nil => exact h2
    | cons d ds => rw [h2]; exact fold ds d
  · rintro ⟨fields, h1, h2⟩
    refine ⟨fields, h1, ?_⟩
    cases fields with
    | nil => exact h2
    | cons d ds => rw [h2]; exact (fold ds d).symm

/-- C21, one line: a variable that is rejected rejects the match of the line, whatever the variables after it. -/
theorem C21_line_rejected (mf : MatchFns) (vars : Dict Str (Str × List FnCall)) (before after : List (Str × Str))
    (name value orig : Str) (fns : List FnCall) (hv : Dict.get? vars name = some (orig, fns))
    (env e1 e2 : Env) (acc d : Dict Key Val)
    (hb : checkVars mf vars before env acc = .ok (e1, some d))
    (hr : runMatchFns mf fns e1 (.str value) none = .ok (e2, none)) :
    checkVars mf vars (before ++ (name, value) :: after) env acc = .ok (e2, none) := by
  induction before generalizing env acc with
  | nil =>
    simp only [checkVars, pure_ok, Except.ok.injEq, Prod.mk.injEq] at hb
    obtain ⟨rfl, _⟩ := hb
    simp only [List.nil_append, checkVars, hv, hr, ok_bind, pure_ok]
  | cons x before ih =>
    obtain ⟨n, t⟩ := x
    simp only [List.cons_append, checkVars] at hb ⊢
    cases hn : Dict.get? vars n with
    | none => rw [hn] at hb; cases hb
    | some of =>
      obtain ⟨o, f⟩ := of
      rw [hn] at hb
      simp only [bind_ok_iff] at hb ⊢
      obtain ⟨⟨e, out⟩, h1, h2⟩ := hb
      refine ⟨(e, out), h1, ?_⟩
      cases out with
      | none => simp at h2
      | some vf => exact ih _ _ h2

/-- C21, collected matches: a match of a line that does not start the group leaves nothing if it is rejected; a match of a
start line is kept as rejected start (no values); a match that passes is kept with its values. Each at the position of
the match in the text. -/
theorem C21_rejected_match (mf : MatchFns) (info : GInfo) (line : LineRx) (start : Nat) (m : Re.Match) (env e1 : Env)
    (out : Option (Dict Key Val)) (h : checkMatch mf line m env = .ok (e1, out)) (ms : List Re.Match) (r : RawDict) :
    checkMatches mf info line start (m :: ms) env r =
      if out = none ∧ line.action.isStart = false then checkMatches mf info line start ms e1 r
      else checkMatches mf info line start ms e1 (addRaw r (start + m.start) ⟨info, line, out⟩) := by
  simp only [checkMatches, h, ok_bind]
  cases out <;> cases line.action.isStart <;> rfl

/-- `interface {{ name | only("b") }}` -/
def Ex.lineB (a : Action) : LineRx :=
  { Ex.lineOf a c!"interface {{ name }}" with vars := [(c!"name", (c!"name", [⟨c!"only", [.str c!"b"], []⟩]))] }

/-- on two interfaces: the first start is rejected but kept -/
example : Ex.view (checkMatches Ex.mfOnly Ex.infoI (Ex.lineB .start) 0 (Re.finditer (Ex.lineB .start).re Ex.text1) Ex.env0 []) =
    some [(5, [(0, none)]), (30, [(0, some [(.s c!"name", .str c!"b")])])] := by decide +kernel

/-- on an ordinary line it is dropped -/
example : Ex.view (checkMatches Ex.mfOnly Ex.infoI (Ex.lineB .add) 0 (Re.finditer (Ex.lineB .add).re Ex.text1) Ex.env0 []) =
    some [(30, [(0, some [(.s c!"name", .str c!"b")])])] := by decide +kernel

example : Rejects Ex.mfOnly ⟨c!"only", [.str c!"b"], []⟩ Ex.env0 (.str c!"a") Ex.env0 := ⟨.str c!"a", by decide⟩

/-! ## C23 -/

/-- C23. Let a group be searched in the window from `start` to `stop` and let its first start match be at `start + s`. Every
match recorded for another group is of a child and lies at or after that position and inside of the window of the group,
or is the one that stands for the defaults of a child that was not found. -/
theorem C23_child_after_parent_start (mf : MatchFns) (text : Str) (info : GInfo) (startL normalL endL : List LineRx)
    (d : Bool) (children : List Grp) (start : Nat) (stop : Option Nat) (hw : ∀ e, stop = some e → start ≤ e)
    (env env' : Env) (r : RawDict)
    (h : runRe mf text (.mk info startL normalL endL d children) start stop env [] = .ok (env', r))
    (s : Nat) (hs : FirstMatch startL (slice text start stop) s)
    (p : Nat) (x : RawHit) (hx : Recorded r p x) (hc : x.info ≠ info) :
    x.info ∈ infosAll children ∧
    ((start + s ≤ p ∧ ∀ e, stop = some e → p ≤ e) ∨ (10000000 ≤ p ∧ x.data = some [])) := by
  obtain ⟨e, se, stop', _, _, _, _, h3, h4⟩ := found_children mf text info startL normalL endL d children start stop hw env env' r h s hs
  obtain ⟨h5, h6⟩ := h4 p x hx hc
  refine ⟨h5, ?_⟩
  rcases h6 with ⟨h6, h7⟩ | h6
  · refine Or.inl ⟨h6, fun e' he' => ?_⟩
    obtain ⟨y, hy, hle⟩ := h3 e' he'
    exact Nat.le_trans (h7 y hy) hle
  · exact Or.inr h6

/-- C23, `_end_`: if the last match `m` of some `_end_` line, counted from the first start of the group, ends beyond every
start match of the group, counted from the beginning of the window (`_line_` starts do not count), then the group ends:
there is a match of an `_end_` line, ending at `E`, not before that of `m`, and no match of a child group lies behind `E`.
(The two positions are counted from different points; see `C23_end_ineffective_after_preamble`.) -/
theorem C23_child_before_parent_end (mf : MatchFns) (text : Str) (info : GInfo) (startL normalL endL : List LineRx)
    (d : Bool) (children : List Grp) (start : Nat) (stop : Option Nat) (hw : ∀ e, stop = some e → start ≤ e)
    (env env' : Env) (r : RawDict)
    (h : runRe mf text (.mk info startL normalL endL d children) start stop env [] = .ok (env', r))
    (s : Nat) (hs : FirstMatch startL (slice text start stop) s)
    (R : LineRx) (hR : R ∈ endL) (m : Re.Match)
    (hm : (Re.finditer R.re (slice text (start + s) stop)).getLast? = some m) (hpos : 0 < m.stop)
    (hlast : ∀ S ∈ startL, S.isLine = false → ∀ a ∈ Re.finditer S.re (slice text start stop), start + a.stop < m.stop) :
    ∃ E, (∃ R' ∈ endL, ∃ m' ∈ Re.finditer R'.re (slice text (start + s) stop), E = start + s + m'.stop) ∧
      start + s + m.stop ≤ E ∧
      ∀ p x, Recorded r p x → x.info ≠ info →
        x.info ∈ infosAll children ∧ ((start + s ≤ p ∧ p ≤ E) ∨ (10000000 ≤ p ∧ x.data = some [])) := by
  obtain ⟨e, se, stop', hse, h0, h1, h2, _, h4⟩ := found_children mf text info startL normalL endL d children start stop hw env env' r h s hs
  have hlt : se < m.stop := by
    rcases hse with rfl | ⟨S, hS, hl, a, ha, rfl⟩
    · exact hpos
    · have := hlast S hS hl a ha; omega
  obtain ⟨y, hy, hle⟩ := h2 R hR m hm hlt
  obtain ⟨R', hR', m', hm', e1⟩ := h1 y hy
  refine ⟨start + s + y, ⟨R', hR', m', hm', by rw [e1]⟩, by omega, fun p x hx hc => ?_⟩
  obtain ⟨h5, h6⟩ := h4 p x hx hc
  refine ⟨h5, ?_⟩
  rcases h6 with ⟨h6, h7⟩ | h6
  · refine Or.inl ⟨h6, h7 _ ?_⟩
    rw [h0, hy]
  · exact Or.inr h6

/-- the child line behind `exit` is not collected -/
example : Ex.view (runRe Ex.mf0 Ex.text2 Ex.grpE 0 none Ex.env0 []) = some [
    (0, [(0, some [(.s c!"name", .str c!"a")])]), (12, [(1, some [(.s c!"ip", .str c!"1")])]),
    (18, [(0, some [(.s c!"_end_", .str c!"\nexit")])])] := by decide +kernel

/-- the hypotheses of the theorem hold for it -/
example : FirstMatch [Ex.lineOf .start c!"interface {{ name }}"] (slice Ex.text2 0 none) 0 ∧
    (∃ m, (Re.finditer (Ex.lineOf .end_ c!"exit{{ _end_ }}").re (slice Ex.text2 0 none)).getLast? = some m ∧ m.stop = 23 ∧
      ∀ a ∈ Re.finditer (Ex.lineOf .start c!"interface {{ name }}").re (slice Ex.text2 0 none), 0 + a.stop < 23) := by
  refine ⟨⟨⟨Ex.lineOf .start c!"interface {{ name }}", by simp, ⟨0, c!"\ninterface a", [(c!"name", c!"a")]⟩, by decide +kernel, rfl⟩, by simp⟩,
    ⟨18, c!"\nexit", []⟩, by decide +kernel, by decide, by decide +kernel⟩

/-- C23, disagreement: the same group and the same lines after a preamble that is longer than the group. The `_end_` match
follows every start match, but it does not end the group: the child line behind it is collected. -/
theorem C23_end_ineffective_after_preamble :
    Ex.view (runRe Ex.mf0 (dataText c!"a long preamble of the text, longer than the group\ninterface a\n ip 1\nexit\n ip 2") Ex.grpE
      0 none Ex.env0 []) = some [
    (51, [(0, some [(.s c!"name", .str c!"a")])]), (63, [(1, some [(.s c!"ip", .str c!"1")])]),
    (69, [(0, some [(.s c!"_end_", .str c!"\nexit")])]), (74, [(1, some [(.s c!"ip", .str c!"2")])])] := by decide +kernel

/-- C23, disagreement: the start of a group is not found, but a child with a default on its start line is searched for all
the same, in the whole window of the parent, and its matches are recorded. -/
theorem C23_child_of_absent_parent :
    Ex.view (runRe Ex.mf0 (dataText c!"no interface\n ip 7") (.mk Ex.infoI [Ex.lineOf .start c!"interface {{ name }}"] [] [] false
      [Ex.grpA true]) 0 none Ex.env0 []) = some [(13, [(1, some [(.s c!"ip", .str c!"7")])])] := by decide +kernel

/-! ## C24 -/

/-- C24. No start line of the group matches and there is a default on a start line: the results get exactly one new match of
the group, without values, at the first free position from 10000000 on; everything recorded before stays and what is
new otherwise belongs to child groups. -/
theorem C24_defaults_once (mf : MatchFns) (text : Str) (info : GInfo) (startL normalL endL : List LineRx)
    (children : List Grp) (hch : ∀ i ∈ infosAll children, i.uid ≠ info.uid) (start : Nat) (stop : Option Nat)
    (hw : ∀ e, stop = some e → start ≤ e) (env env' : Env) (r r' : RawDict)
    (hg : (r.map Prod.fst).Nodup ∧ ∀ kv ∈ r, kv.2 ≠ [])
    (hn : NoMatch startL (slice text start stop))
    (h : runRe mf text (.mk info startL normalL endL true children) start stop env r = .ok (env', r')) :
    ∃ key, 10000000 ≤ key ∧ key ∉ Dict.keys r ∧ (∀ q, 10000000 ≤ q → q < key → q ∈ Dict.keys r) ∧
      ∀ p x, x.info = info →
        (Recorded r' p x ↔ Recorded r p x ∨ (p = key ∧ x = ⟨info, (startL.head?).getD emptyStart, some []⟩)) := by
  have h2 := absent_children mf text info startL normalL endL true children start stop env env' r r' hn h
  simp only [if_true] at h2
  refine ⟨freeKey r r.length 10000000, freeKey_ge _ _ _, freeKey_free r _, fun q a b => freeKey_skipped r _ _ q a b, ?_⟩
  intro p x hx
  have ha := recorded_addDefault info startL r hg p x
  have hge := good_addDefault info startL r hg
  constructor
  · intro hr
    rcases (runDefaultChildren_entries mf text startL.isEmpty children start stop env env' _ r' hge hw h2).2 p x hr with hr | hr
    · rcases ha.1 hr with hr | hr
      · exact Or.inr hr
      · exact Or.inl hr
    · exact absurd (by rw [hx]) (hch _ hr.1)
  · intro hr
    apply runDefaultChildren_keeps mf text startL.isEmpty children start stop env env' _ r' hge hw h2 p x _ (by rw [hx]; exact hch)
    exact ha.2 (hr.symm)

/-- C24. No start line of the group matches (it has some) and neither it nor its children have defaults on start lines: the
search leaves everything as it was. -/
theorem C24_nothing (mf : MatchFns) (text : Str) (info : GInfo) (startL normalL endL : List LineRx) (hne : startL ≠ [])
    (children : List Grp) (hch : ∀ g ∈ children, g.hasDefault = false) (start : Nat) (stop : Option Nat) (env : Env)
    (r : RawDict) (hn : NoMatch startL (slice text start stop)) :
    runRe mf text (.mk info startL normalL endL false children) start stop env r = .ok (env, r) := by
  have hemp : startL.isEmpty = false := by cases startL with
    | nil => exact absurd rfl hne
    | cons => rfl
  have hd : ∀ gs : List Grp, (∀ g ∈ gs, g.hasDefault = false) → runDefaultChildren mf text startL.isEmpty gs start stop env r =
      .ok (env, r) := by
    intro gs
    induction gs with
    | nil => intro _; rfl
    | cons g gs ih =>
      intro hg
      simp only [runDefaultChildren, hemp, hg g (by simp), Bool.false_or, Bool.false_eq_true, if_false, pure_ok, ok_bind]
      rw [← hemp]; exact ih (fun g h => hg g (by simp [h]))
  simp only [runRe, runStarts_noMatch mf text info start stop startL _ env r hn, ok_bind]
  simp only [Bool.false_eq_true, if_false]
  exact hd children hch

/-- C24, the record: a top group without children, functions and start matches, with a default on its start line, adds to the
results exactly one record, its defaults. -/
theorem C24_defaults_record (mf : MatchFns) (gf : GroupFns) (toInt : Bool) (text : Str) (info : GInfo)
    (startL normalL endL : List LineRx) (hpar : info.parent = none) (hf : info.funcs = [])
    (hst : StaticPath info.path) (hpne : info.path ≠ []) (hact : ∀ l ∈ startL, l.action.isStart = true)
    (hn : NoMatch startL (slice text 0 none)) (env : Env) (R0 : Val) :
    (parseText mf gf toInt [] [.mk info startL normalL endL true []] text env R0).map (·.results) =
      save toInt false (.dict (addDefaults [] (updateRuns (updateRuns info.defaults env.gvars) env.vars)))
        (parsePath info.path) R0 := by
  have hre : runRe mf text (.mk info startL normalL endL true []) 0 none env [] =
      .ok (env, [(10000000, [⟨info, (startL.head?).getD emptyStart, some []⟩])]) := by
    simp only [runRe, runStarts_noMatch mf text info 0 none startL _ env [] hn, ok_bind, if_true, runDefaultChildren]
    rfl
  have hst' : ((startL.head?).getD emptyStart).action.isStart = true := by
    cases startL with
    | nil => rfl
    | cons l ls => exact hact l (by simp)
  simp only [parseText, runGroups, hre, ok_bind, pure_ok]
  have e1 : ((([[(10000000, [(⟨info, (startL.head?).getD emptyStart, some []⟩ : RawHit)])]] : List RawDict).filter
      (fun r => !r.isEmpty)).map (fun r => (sortRaw r).map (fun kv => kv.2.map (toHit env)))) =
      [[toHit env ⟨info, (startL.head?).getD emptyStart, some []⟩].map ([·])] := rfl
  rw [e1]
  unfold makeResults
  simp only [List.isEmpty_cons, Bool.false_eq_true, if_false, List.flatten_cons, List.flatten_nil, List.append_nil, saveVars,
    sorted, saveVarsAll, List.foldr_nil, pure_ok, ok_bind]
  rw [flat_sim toInt gf info.gid info.path hst hpne (updateRuns (updateRuns info.defaults env.gvars) env.vars) _ ?_ _ none false
    ⟨rfl, fun _ => rfl, by simp⟩]
  · have e2 : evOf (toHit env ⟨info, (startL.head?).getD emptyStart, some []⟩) = .start [] := by
      simp only [evOf, toHit]
      cases hc : ((startL.head?).getD emptyStart).action with
      | start => rfl
      | startempty => rfl
      | add => rw [hc] at hst'; cases hst'
      | join => rw [hc] at hst'; cases hst'
      | end_ => rw [hc] at hst'; cases hst'
    simp only [List.map_cons, List.map_nil, e2, recsOf, Option.toList, List.nil_append, List.foldlM_cons, List.foldlM_nil, pure_ok]
    cases save toInt false (.dict (addDefaults [] (updateRuns (updateRuns info.defaults env.gvars) env.vars)))
        (parsePath info.path) R0 <;> rfl
  · intro h hh
    simp only [List.mem_singleton] at hh
    subst hh
    exact ⟨rfl, hpar, rfl, rfl, hf, Or.inl hst', by intro d e; cases e; simp [Dict.WF, Dict.keys]⟩

/-- no interface in the text: the defaults at a position behind the text -/
example : Ex.view (runRe Ex.mf0 (dataText c!"nothing here") Ex.grpD 0 none Ex.env0 []) = some [(10000000, [(0, some [])])] := by
  decide +kernel

example : (parseText Ex.mf0 Ex.gf0 false [] [.mk Ex.infoI [Ex.lineOf .start c!"interface {{ name }}"] [] [] true []]
      (dataText c!"nothing here") Ex.env0 (.dict [])).map (·.results) =
    .ok (.dict [(.s c!"interfaces", .list [.dict [(.s c!"mtu", .str c!"1500")]])]) := by decide +kernel

end Props
