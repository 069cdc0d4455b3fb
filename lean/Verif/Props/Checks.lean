import Verif.Spec.Checks
import Verif.Props.RichFns
/-!
# C171: a flat group with checks, from the template to the results
-/

namespace Props
open Py Spec TTP
open TTP.MatchFn (pyEq)

theorem pyEq_text_left (t : Str) (v : Val) : pyEq (.str t) v = true ↔ v = .str t := by
  cases v <;> simp [pyEq]
  exact eq_comm

theorem pyEq_text_right (v : Val) (t : Str) : pyEq v (.str t) = true ↔ v = .str t := by
  cases v <;> simp [pyEq]

theorem own_iff (dflt r : Dict Key Val) (n : Str) (h : ∀ y, valueOf dflt n = some y → ∃ t, y = .str t) :
    (∃ x, valueOf r n = some x ∧ ∀ y, valueOf dflt n = some y → pyEq y x = false) ↔ HasOwn dflt r n := by
  unfold HasOwn
  refine exists_congr fun x => and_congr_right fun _ => ?_
  cases e : valueOf dflt n with
  | none => simp
  | some y =>
    obtain ⟨t, rfl⟩ := h y e
    have := pyEq_text_left t x
    cases hp : pyEq (.str t) x
    · rw [hp] at this
      simp only [Bool.false_eq_true, false_iff] at this
      simp [hp]; exact fun h => this h.symm
    · rw [hp] at this
      have := this.1 rfl
      subst this
      simp [hp]

theorem check_decides (W : GroupFn.World) (ms : MS) (dflt : Dict Key Val) (env : Env) (hd : ms.record.defaults = dflt) (hv : ms.vars = env.vars)
    (c : GCheck) (hc : c.OK dflt env) (r : Dict Key Val) : Decides W c.call ms (.dict r) (c.Holds dflt env r) := by
  subst hd
  cases c with
  | contains ns =>
    obtain ⟨flag, h1, h2⟩ := C53_contains W ms r ns
    refine ⟨flag, h1, h2.trans ?_⟩
    refine exists_congr fun pre => exists_congr fun n => exists_congr fun post => and_congr_right fun he => and_congr_right fun _ => ?_
    exact own_iff _ r n (hc n (by simp [he]))
  | containsall ns =>
    obtain ⟨flag, h1, h2⟩ := C53_containsall W ms r ns
    refine ⟨flag, h1, h2.trans ?_⟩
    exact forall_congr' fun n => forall_congr' fun hn => own_iff _ r n (hc n hn)
  | exclude ns =>
    obtain ⟨flag, h1, h2⟩ := C53_exclude W ms r ns
    refine ⟨flag, h1, h2.trans ?_⟩
    simp only [GCheck.Holds]
    grind
  | excludeall ns =>
    obtain ⟨flag, h1, h2⟩ := C53_excludeall W ms r ns
    refine ⟨flag, h1, h2.trans ?_⟩
    simp only [GCheck.Holds]
    grind
  | equal n v =>
    obtain ⟨t, ht⟩ := hc
    obtain ⟨flag, h1, h2⟩ := (C74_value_checks W ms r n v (.str t) (by rw [← ht, hv]; rfl) (by simp)).1
    refine ⟨flag, h1, h2.trans ?_⟩
    simp only [GCheck.Holds, ht, pyEq_text_right]
    simp
  | excludeVal n v =>
    obtain ⟨t, ht⟩ := hc
    obtain ⟨flag, h1, h2⟩ := (C74_value_checks W ms r n v (.str t) (by rw [← ht, hv]; rfl) (by simp)).2.1
    refine ⟨flag, h1, h2.trans ?_⟩
    simp only [GCheck.Holds, ht, pyEq_text_right]
    simp

/-- checks let a record pass as it is, if all of them hold -/
theorem checks_judged (W : GroupFn.World) (dflt : Dict Key Val) (env : Env) (r : Dict Key Val) (hne : r ≠ []) (hw : (Dict.keys r).Nodup)
    (cs : List GCheck) (hcs : ∀ c ∈ cs, c.OK dflt env) :
    ((∀ c ∈ cs, c.Holds dflt env r) → GJudged (GroupFn.builtin W) dflt env (cs.map GCheck.call) r (some r)) ∧
    (¬ (∀ c ∈ cs, c.Holds dflt env r) → GJudged (GroupFn.builtin W) dflt env (cs.map GCheck.call) r none) := by
  induction cs with
  | nil => exact ⟨fun _ => .done hne hw, fun h => absurd (by simp) h⟩
  | cons c cs ih =>
    obtain ⟨ih1, ih2⟩ := ih (fun x hx => hcs x (by simp [hx]))
    have key : ∀ ms : MS, ms.record.defaults = dflt → ms.vars = env.vars → Decides W c.call ms (.dict r) (c.Holds dflt env r) :=
      fun ms h1 h2 => check_decides W ms dflt env h1 h2 c (hcs c (by simp)) r
    constructor
    · intro h
      refine .go (r' := r) (fun ms h1 h2 _ => ?_) (ih1 (fun x hx => h x (by simp [hx])))
      obtain ⟨flag, e, hf⟩ := key ms h1 h2
      exact ⟨flag, e, hf.2 (h c (by simp))⟩
    · intro h
      by_cases hc : c.Holds dflt env r
      · refine .go (r' := r) (fun ms h1 h2 _ => ?_) (ih2 ?_)
        · obtain ⟨flag, e, hf⟩ := key ms h1 h2
          exact ⟨flag, e, hf.2 hc⟩
        · intro h'
          apply h
          intro x hx
          rcases List.mem_cons.1 hx with rfl | hx
          · exact hc
          · exact h' x hx
      · refine .no (fun ms h1 h2 _ => ?_)
        obtain ⟨flag, e, hf⟩ := key ms h1 h2
        have : flag = some false := Classical.not_not.1 (fun h' => hc (hf.1 h'))
        exact ⟨.dict r, by rw [e, this]⟩

theorem checks_answered (W : GroupFn.World) (mf : MatchFns) (env : Env) (cs : List GCheck) (tpl : List RLine)
    (hcs : ∀ c ∈ cs, c.OK (richDefaults tpl) env) (d : Str) : Answered mf (GroupFn.builtin W) env (cs.map GCheck.call) tpl d := by
  rintro recs ⟨_, _, _, _, _, hw⟩ r hr
  by_cases h : ∀ c ∈ cs, c.Holds (richDefaults tpl) env r
  · exact ⟨_, (checks_judged W _ env r (hw r hr).1 (hw r hr).2 cs hcs).1 h⟩
  · exact ⟨_, (checks_judged W _ env r (hw r hr).1 (hw r hr).2 cs hcs).2 h⟩

/-- for checks, what the functions mean is what the checks mean -/
theorem checks_mean (W : GroupFn.World) (mf : MatchFns) (env : Env) (path : List PathStep) (toInt : Bool) (cs : List GCheck) (tpl : List RLine)
    (hcs : ∀ c ∈ cs, c.OK (richDefaults tpl) env) (d : Str) (v : Val)
    (h : FnMeans mf (GroupFn.builtin W) env path toInt (cs.map GCheck.call) tpl d v) : ChecksMean mf env path toInt cs tpl d v := by
  obtain ⟨recs, outs, h1, h2, h3⟩ := h
  refine ⟨recs, outs.filterMap id, h1, ?_, h3⟩
  have hw := h1.choose_spec.choose_spec.2.2.2
  clear h1 h3
  induction h2 with
  | nil => exact .nil
  | @cons r out recs outs hj _ ih =>
    have hr := hw r (by simp)
    have ih := ih (fun x hx => hw x (by simp [hx]))
    have hj2 := checks_judged W (richDefaults tpl) env r hr.1 hr.2 cs hcs
    by_cases h : ∀ c ∈ cs, c.Holds (richDefaults tpl) env r
    · have := gjudged_det hj (hj2.1 h)
      subst this
      exact .keep h ih
    · have := gjudged_det hj (hj2.2 h)
      subst this
      exact .drop h ih

/-- C171. A template with one flat group that has any checks as attributes, in any order: it loads, and for every text whose lines are read in one
way at most the results are exactly the records for which all checks hold, unchanged, in order, at the place that the path means. -/
theorem C171_checks (ctx : LoadCtx) (hp : ctx.patterns = getPattern) (hre : ctx.re = ReText.compile) (mf : MatchFns) (W : GroupFn.World)
    (toInt : Bool) (path : List PathStep) (hpath : PathOK path) (hnum : NumbersOK toInt path) (attrs : List (Str × Str)) (cs : List GCheck)
    (hfs : FnAttrs ctx attrs (cs.map GCheck.call)) (tpl : List RLine) (ho : ∀ l ∈ tpl, l.OK ctx) (he : EndsPlain tpl) (tail : Option Str) :
    ∃ gs, loadGroups ctx c!"." 0 0 [fnXml (pathText path) attrs tpl tail] = .ok gs ∧
      ∀ env, DefaultsPlain env tpl → (∀ c ∈ cs, c.OK (richDefaults tpl) env) → ∀ d, RichClear mf env tpl d →
        ∃ v, ChecksMean mf env path toInt cs tpl d v ∧
          (parseText mf (GroupFn.builtin W) toInt [] (gs.map (·.grp)) (dataText d) env (.dict [])).map (fun m => (m.results, m.vars, m.gvars)) =
            .ok (v, env.vars, env.gvars) := by
  obtain ⟨gs, h1, h2⟩ := C170_group_functions ctx hp hre mf (GroupFn.builtin W) toInt path hpath hnum attrs _ hfs tpl ho he tail
  refine ⟨gs, h1, fun env hd hcs d hc => ?_⟩
  obtain ⟨v, h3, h4⟩ := h2 env hd d hc (checks_answered W mf env cs tpl hcs d)
  exact ⟨v, checks_mean W mf env path toInt cs tpl hcs d v h3, h4⟩

/-- C171, the parser object: any texts in any inputs. -/
theorem C171_object (ctx : LoadCtx) (hp : ctx.patterns = getPattern) (hre : ctx.re = ReText.compile) (E : Engine) (W : GroupFn.World)
    (hE : E.gf = GroupFn.builtin W) (path : List PathStep) (hpath : PathOK path) (hnum : NumbersOK E.toInt path) (attrs : List (Str × Str))
    (cs : List GCheck) (hfs : FnAttrs ctx attrs (cs.map GCheck.call))
    (tpl : List RLine) (ho : ∀ l ∈ tpl, l.OK ctx) (hends : EndsPlain tpl)
    (tail : Option Str) (gs : List TopGroup) (hload : loadGroups ctx c!"." 0 0 [fnXml (pathText path) attrs tpl tail] = .ok gs) (tname : Str)
    (vars gvars lookups ovars olookups) (hdef : DefaultsPlain ⟨vars, gvars⟩ tpl) (hcs : ∀ c ∈ cs, c.OK (richDefaults tpl) ⟨vars, gvars⟩)
    (inputs : Dict Str (List Str)) (hc : ∀ i ∈ inputs, ∀ d ∈ i.2, RichClear E.mf ⟨vars, gvars⟩ tpl d) :
    ∃ o vs, parseOne E ⟨[⟨tname, gs, inputs.map (fun i => (i.1, ⟨i.2.map (fun d => ⟨.text, .str d⟩), [0], [], .dict []⟩)), vars, [], [],
        lookups, [], c!"per_input", .list []⟩], ovars, olookups, gvars⟩ = .ok o ∧
      All2 (ChecksMean E.mf ⟨vars, gvars⟩ path E.toInt cs tpl) (inputs.flatMap (·.2)) vs ∧ o.templates.map (·.results) = [.list vs] ∧
      o.gvars = gvars := by
  obtain ⟨o, vs, h1, h2, h3⟩ := C170_object ctx hp hre E path hpath hnum attrs _ hfs tpl ho hends tail gs hload tname vars gvars lookups ovars
    olookups hdef inputs (fun i hi d hd => ⟨hc i hi d hd, by rw [hE]; exact checks_answered W E.mf _ cs tpl hcs d⟩)
  refine ⟨o, vs, h1, ?_, h3⟩
  rw [hE] at h2
  clear h1 h3 hc
  generalize inputs.flatMap (·.2) = ds at h2
  induction h2 with
  | nil => exact .nil
  | cons h _ ih => exact .cons (checks_mean W E.mf _ path E.toInt cs tpl hcs _ _ h) ih

/-! ## The template of C151 with checks -/

namespace Ex
/-- `containsall="name" exclude="vid" equal="state, up1"` -/
def xcAttrs : List (Str × Str) := [(c!"containsall", c!"name"), (c!"exclude", c!"vid"), (c!"equal", c!"state, up1")]
/-- the checks of the attributes -/
def xcChecks : List GCheck := [.containsall [c!"name"], .exclude [c!"vid"], .equal c!"state" c!"up1"]
end Ex

/-- the attributes of the example are the calls of the checks -/
example : FnAttrs Ex.richCtx Ex.xcAttrs (Ex.xcChecks.map GCheck.call) := by
  refine .one ⟨by decide, Ex.attr_ok _ (by decide) (by decide) (by decide), rfl, Or.inr ⟨by decide, ?_⟩⟩
    (.one ⟨by decide, Ex.attr_ok _ (by decide) (by decide) (by decide), rfl, Or.inr ⟨by decide, ?_⟩⟩
    (.one ⟨by decide, Ex.attr_ok _ (by decide) (by decide) (by decide), rfl, Or.inr ⟨by decide, ?_⟩⟩ .nil))
  · show Args.eval (fun _ => none) c!"name" = _
    decide +kernel
  · show Args.eval (fun _ => none) c!"vid" = _
    decide +kernel
  · show Args.eval (fun _ => none) c!"state, up1" = _
    decide +kernel

example : ∀ c ∈ Ex.xcChecks, c.OK (richDefaults Ex.xrTpl) ⟨[], []⟩ := by
  intro c hc
  simp only [Ex.xcChecks, List.mem_cons, List.not_mem_nil, or_false] at hc
  rcases hc with rfl | rfl | rfl
  · intro n hn y hy
    simp only [List.mem_singleton] at hn
    subst hn
    have : valueOf (richDefaults Ex.xrTpl) c!"name" = none := by decide +kernel
    rw [this] at hy; cases hy
  · trivial
  · exact ⟨c!"up1", rfl⟩

/-- C171: of the two records of the text of C151 the one that has a name, no `vid` and the state `up1` is saved. -/
theorem C171_example : ChecksMean (MatchFn.builtin W1) ⟨[], []⟩ [⟨c!"host", 0⟩, ⟨c!"up", 1⟩] false Ex.xcChecks Ex.xrTpl Ex.xrText
    (.dict [(.s c!"host", .dict [(.s c!"up", .list [.dict [(.s c!"name", .str c!"a"), (.s c!"state", .str c!"up1"), (.s c!"mtu", .int 9000)]])])]) := by
  obtain ⟨reads, evs, h1, h2, h3⟩ := ex_recs
  refine ⟨_, [[(.s c!"name", .str c!"a"), (.s c!"state", .str c!"up1"), (.s c!"mtu", .int 9000)]], ⟨reads, evs, h1, h2, h3, by decide⟩,
    .keep ?_ (.drop ?_ .nil), Or.inr ⟨by simp, _, _, rfl, .list _, rfl⟩⟩
  · intro c hc
    simp only [Ex.xcChecks, List.mem_cons, List.not_mem_nil, or_false] at hc
    rcases hc with rfl | rfl | rfl
    · intro n hn
      simp only [List.mem_singleton] at hn
      subst hn
      exact ⟨.str c!"a", rfl, by decide +kernel⟩
    · intro n hn _
      simp only [List.mem_singleton] at hn
      subst hn
      rfl
    · rfl
  · intro h
    have := h (.exclude [c!"vid"]) (by simp [Ex.xcChecks]) c!"vid" (by simp) (by decide +kernel)
    cases this

end Props
