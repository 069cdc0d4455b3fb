import Verif.Props.Placed
import Verif.Props.Group
import Verif.Props.Template
/-!
# C170: a flat group with functions, from the template to the results
-/

namespace Props
open Py Spec TTP

theorem attrs_fns (ctx : LoadCtx) (index : Nat) {attrs : List (Str × Str)} {fs : List FnCall} (h : FnAttrs ctx attrs fs) :
    ∀ a : GAttrs, groupAttrs ctx c!"." true index attrs a = .ok { a with funcs := a.funcs ++ fs } := by
  induction h with
  | nil => intro a; simp [groupAttrs, pure_ok]
  | @one nv attrs f fs hnv _ ih =>
    intro a
    obtain ⟨n, v⟩ := nv
    have := C84_group_attribute ctx c!"." true index a n v hnv.1 hnv.2.1 f hnv.2.2
    simp only [groupAttrs, this, ok_bind, ih]
    simp
  | @pipe name items attrs piped fs hn hne hi hm hv ho _ ih =>
    intro a
    have := (C84_functions_attribute ctx c!"." true index a name (by simpa [or_comm] using hn) items piped hne hi hm hv).1 (by
      intro f hf
      have := ho f hf
      simp only [List.mem_cons, List.not_mem_nil, or_false, not_or] at this ⊢
      grind)
    have hfl : piped.filter (fun f => decide (f.name ∉ [c!"input", c!"output"]) && ctx.isGroupFn f.name) =
        piped.filter (fun f => ctx.isGroupFn f.name) := by
      apply List.filter_congr
      intro f hf
      have := ho f hf
      simp only [List.mem_cons, List.not_mem_nil, or_false, not_or] at this ⊢
      simp [this]
    rw [hfl] at this
    simp only [groupAttrs, this, ok_bind, ih]
    simp

theorem load_fns (ctx : LoadCtx) (hp : ctx.patterns = getPattern) (hre : ctx.re = ReText.compile) (path : List PathStep) (hpath : PathOK path)
    (attrs : List (Str × Str)) (fs : List FnCall) (hfs : FnAttrs ctx attrs fs)
    (tpl : List RLine) (ho : ∀ l ∈ tpl, l.OK ctx) (tail : Option Str) :
    loadGroups ctx c!"." 0 0 [fnXml (pathText path) attrs tpl tail] = .ok [⟨0, pathText path, [], richGrp (pathText path) fs tpl⟩] := by
  obtain ⟨_, h2, h3⟩ := pathText_chars path hpath
  apply loadGroups_fns ctx hp hre (pathText path) h3 attrs fs _ tpl ho tail
  have h0 := groupAttrs_dotted ctx (pathText path) (by
    rintro ⟨r, e⟩
    apply h2
    rw [← e]
    simp)
  have hcons : ∀ (nv : Str × Str) rest a, groupAttrs ctx c!"." true 0 (nv :: rest) a =
      (groupAttrs ctx c!"." true 0 [nv] a >>= fun a' => groupAttrs ctx c!"." true 0 rest a') := by
    intro nv rest a
    obtain ⟨n, v⟩ := nv
    simp only [groupAttrs]
    cases groupAttr ctx c!"." true 0 a n v <;> rfl
  rw [hcons, h0, ok_bind, attrs_fns ctx 0 hfs]
  rfl

theorem judged_list {gf : GroupFns} {dflt : Dict Key Val} {env : Env} {fs : List FnCall} (recs : List (Dict Key Val))
    (h : ∀ r ∈ recs, ∃ out, GJudged gf dflt env fs r out) :
    ∃ outs, All2 (GJudged gf dflt env fs) recs outs ∧ recs.filterMap (keptOf gf dflt env fs) = outs.filterMap id ∧
      ∀ o ∈ outs.filterMap id, o ≠ [] ∧ Dict.WF o := by
  induction recs with
  | nil => exact ⟨[], .nil, rfl, by simp⟩
  | cons r recs ih =>
    obtain ⟨out, hr⟩ := h r (by simp)
    obtain ⟨outs, h1, h2, h3⟩ := ih (fun x hx => h x (by simp [hx]))
    refine ⟨out :: outs, .cons hr h1, ?_, ?_⟩
    · rw [List.filterMap_cons, keptOf_eq hr, List.filterMap_cons, h2]
      rfl
    · intro o hm
      rw [List.mem_filterMap] at hm
      obtain ⟨x, hx, e⟩ := hm
      simp only [id] at e
      subst e
      rcases List.mem_cons.1 hx with hx | hx
      · rw [← hx] at hr; exact gjudged_ok hr
      · exact h3 o (List.mem_filterMap.2 ⟨some o, hx, rfl⟩)

theorem fn_means (ctx : LoadCtx) (mf : MatchFns) (gf : GroupFns) (toInt : Bool) (path : List PathStep) (hpath : PathOK path)
    (hnum : NumbersOK toInt path) (fs : List FnCall) (tpl : List RLine)
    (ho : ∀ l ∈ tpl, l.OK ctx) (he : EndsPlain tpl) (env : Env) (hd : DefaultsPlain env tpl) (d : Str) (hc : RichClear mf env tpl d)
    (ha : Answered mf gf env fs tpl d) :
    ∃ v, FnMeans mf gf env path toInt fs tpl d v ∧
      (parseText mf gf toInt [] [richGrp (pathText path) fs tpl] (dataText d) env (.dict [])).map (fun m => (m.results, m.vars, m.gvars)) =
        .ok (v, env.vars, env.gvars) := by
  obtain ⟨reads, hr⟩ := rich_of_clear mf env tpl _ hc
  obtain ⟨evs, recs, h1, h2, h3, h4⟩ := parse_rich ctx mf gf toInt (pathText path) (pathText_chars path hpath).1 fs tpl ho (splitC '\n' d)
    (splitC_ne_nil '\n' d) (fun t ht => splitC_no_sep '\n' d t ht) env hd he reads hr
  have hrec : TextRecords mf env tpl d recs := ⟨reads, evs, hr, h1, h2, h3⟩
  have hj := ha recs hrec
  have h4 := h4 hj
  obtain ⟨outs, o1, o2, o3⟩ := judged_list recs hj
  rw [o2, join_splitC, parse_pathText path hpath] at h4
  by_cases hnil : outs.filterMap id = []
  · rw [hnil] at h4
    exact ⟨.dict [], ⟨recs, outs, hrec, o1, Or.inl ⟨hnil, rfl⟩⟩, h4⟩
  · obtain ⟨last, x, g1, g2, g3⟩ := many_fresh toInt path hpath hnum _ o3 hnil
    rw [g3] at h4
    exact ⟨_, ⟨recs, outs, hrec, o1, Or.inr ⟨hnil, last, x, g1, g2, rfl⟩⟩, h4⟩

/-- C170. A template with one flat group that has functions as attributes (one by one or as pipes): loading it succeeds, and for every text whose lines are read in one
way at most and for whose records the functions have an answer, the records that the functions let pass, as the functions leave them, are put at
the place the path means, and nothing else is. -/
theorem C170_group_functions (ctx : LoadCtx) (hp : ctx.patterns = getPattern) (hre : ctx.re = ReText.compile) (mf : MatchFns) (gf : GroupFns)
    (toInt : Bool) (path : List PathStep) (hpath : PathOK path) (hnum : NumbersOK toInt path) (attrs : List (Str × Str)) (fs : List FnCall)
    (hfs : FnAttrs ctx attrs fs) (tpl : List RLine) (ho : ∀ l ∈ tpl, l.OK ctx) (he : EndsPlain tpl) (tail : Option Str) :
    ∃ gs, loadGroups ctx c!"." 0 0 [fnXml (pathText path) attrs tpl tail] = .ok gs ∧
      ∀ env, DefaultsPlain env tpl → ∀ d, RichClear mf env tpl d → Answered mf gf env fs tpl d → ∃ v, FnMeans mf gf env path toInt fs tpl d v ∧
        (parseText mf gf toInt [] (gs.map (·.grp)) (dataText d) env (.dict [])).map (fun m => (m.results, m.vars, m.gvars)) =
          .ok (v, env.vars, env.gvars) := by
  refine ⟨_, load_fns ctx hp hre path hpath attrs fs hfs tpl ho tail, ?_⟩
  intro env hd d hc ha
  exact fn_means ctx mf gf toInt path hpath hnum fs tpl ho he env hd d hc ha

/-- C170, the parser object: any texts in any inputs. -/
theorem C170_object (ctx : LoadCtx) (hp : ctx.patterns = getPattern) (hre : ctx.re = ReText.compile) (E : Engine) (path : List PathStep)
    (hpath : PathOK path) (hnum : NumbersOK E.toInt path) (attrs : List (Str × Str)) (fs : List FnCall) (hfs : FnAttrs ctx attrs fs)
    (tpl : List RLine) (ho : ∀ l ∈ tpl, l.OK ctx) (hends : EndsPlain tpl)
    (tail : Option Str) (gs : List TopGroup) (hload : loadGroups ctx c!"." 0 0 [fnXml (pathText path) attrs tpl tail] = .ok gs) (tname : Str)
    (vars gvars lookups ovars olookups) (hdef : DefaultsPlain ⟨vars, gvars⟩ tpl)
    (inputs : Dict Str (List Str))
    (hc : ∀ i ∈ inputs, ∀ d ∈ i.2, RichClear E.mf ⟨vars, gvars⟩ tpl d ∧ Answered E.mf E.gf ⟨vars, gvars⟩ fs tpl d) :
    ∃ o vs, parseOne E ⟨[⟨tname, gs, inputs.map (fun i => (i.1, ⟨i.2.map (fun d => ⟨.text, .str d⟩), [0], [], .dict []⟩)), vars, [], [],
        lookups, [], c!"per_input", .list []⟩], ovars, olookups, gvars⟩ = .ok o ∧
      All2 (FnMeans E.mf E.gf ⟨vars, gvars⟩ path E.toInt fs tpl) (inputs.flatMap (·.2)) vs ∧ o.templates.map (·.results) = [.list vs] ∧
      o.gvars = gvars := by
  have hgs : gs = [⟨0, pathText path, [], richGrp (pathText path) fs tpl⟩] := by
    rw [load_fns ctx hp hre path hpath attrs fs hfs tpl ho tail] at hload
    simpa using hload.symm
  subst hgs
  refine object_of E _ _ vars gvars (fun d => RichClear E.mf ⟨vars, gvars⟩ tpl d ∧ Answered E.mf E.gf ⟨vars, gvars⟩ fs tpl d) _ ?_ tname
    lookups ovars olookups inputs hc
  rintro d ⟨hcl, ha⟩
  obtain ⟨v, hv, hpt⟩ := fn_means ctx E.mf E.gf E.toInt path hpath hnum fs tpl ho hends ⟨vars, gvars⟩ hdef d hcl ha
  refine ⟨v, hv, ?_, hpt⟩
  obtain ⟨recs, outs, _, _, ⟨_, rfl⟩ | ⟨_, last, x, _, _, rfl⟩⟩ := hv
  · simp [formDatum, Dict.get?, pure_ok]
  · exact form_placed _ path hpath x

/-! ## One function -/

/-- `contains` lets a record pass as it is, if it has the name; a name without a default -/
theorem contains_judged (W : GroupFn.World) (dflt : Dict Key Val) (env : Env) (n : Str) (hn : valueOf dflt n = none) (r : Dict Key Val)
    (hw : (Dict.keys r).Nodup) :
    GJudged (GroupFn.builtin W) dflt env [fn c!"contains" [.str n]] r (if valueOf r n ≠ none then some r else none) := by
  have key : ∀ ms : MS, ms.record.defaults = dflt → ∃ flag, GroupFn.builtin W (fn c!"contains" [.str n]) ms (.dict r) = .ok (ms, .dict r, flag) ∧
      (flag ≠ some false ↔ valueOf r n ≠ none) := by
    intro ms hms
    obtain ⟨flag, h1, h2⟩ := C68_contains_any_partial W ms r [n] (by
      intro m hm
      simp only [List.mem_singleton] at hm
      subst hm
      rw [hms]; exact hn)
    exact ⟨flag, h1, h2.trans (by simp)⟩
  by_cases h : valueOf r n ≠ none
  · rw [if_pos h]
    refine .go (r' := r) (fun ms h1 _ _ => ?_) (.done ?_ hw)
    · obtain ⟨flag, e, hf⟩ := key ms h1
      exact ⟨flag, e, hf.2 h⟩
    · rintro rfl
      exact h rfl
  · rw [if_neg h]
    refine .no (fun ms h1 _ _ => ?_)
    obtain ⟨flag, e, hf⟩ := key ms h1
    have : flag = some false := Classical.not_not.1 (fun h' => h (hf.1 h'))
    exact ⟨.dict r, by rw [e, this]⟩

/-- C170 for `contains`: with a variable that has no default, the function has an answer to every record of every text, and what is saved are
the records in which the variable matched, unchanged. -/
theorem C170_contains (W : GroupFn.World) (mf : MatchFns) (env : Env) (path : List PathStep) (toInt : Bool) (tpl : List RLine) (n : Str)
    (hn : valueOf (richDefaults tpl) n = none) (d : Str) :
    Answered mf (GroupFn.builtin W) env [fn c!"contains" [.str n]] tpl d ∧
    ∀ v, FnMeans mf (GroupFn.builtin W) env path toInt [fn c!"contains" [.str n]] tpl d v ↔
      ∃ recs, TextRecords mf env tpl d recs ∧
        ((∀ r ∈ recs, valueOf r n = none) ∧ v = .dict [] ∨
          (∃ r ∈ recs, valueOf r n ≠ none) ∧ ∃ last x, path.getLast? = some last ∧
            Gathers last.stars (recs.filter (fun r => (valueOf r n).isSome)) x ∧ v = placedAt toInt path x) := by
  have hall : ∀ (recs : List (Dict Key Val)), (∀ r ∈ recs, (Dict.keys r).Nodup) →
      All2 (GJudged (GroupFn.builtin W) (richDefaults tpl) env [fn c!"contains" [.str n]]) recs
        (recs.map (fun r => if valueOf r n ≠ none then some r else none)) := by
    intro recs hw
    induction recs with
    | nil => exact .nil
    | cons r recs ih => exact .cons (contains_judged W _ env n hn r (hw r (by simp))) (ih (fun x hx => hw x (by simp [hx])))
  have hfilter : ∀ recs : List (Dict Key Val), (recs.map (fun r => if valueOf r n ≠ none then some r else none)).filterMap id =
      recs.filter (fun r => (valueOf r n).isSome) := by
    intro recs
    induction recs with
    | nil => rfl
    | cons r recs ih =>
      rw [List.map_cons, List.filterMap_cons, List.filter_cons, ih]
      cases valueOf r n <;> simp
  have hnil : ∀ recs : List (Dict Key Val), recs.filter (fun r => (valueOf r n).isSome) = [] ↔ ∀ r ∈ recs, valueOf r n = none := by
    intro recs
    rw [List.filter_eq_nil_iff]
    simp
  have hex : ∀ recs : List (Dict Key Val), recs.filter (fun r => (valueOf r n).isSome) ≠ [] ↔ ∃ r ∈ recs, valueOf r n ≠ none := by
    intro recs
    constructor
    · intro h
      apply Classical.byContradiction
      intro hc
      exact h ((hnil recs).2 (fun r hr => Classical.not_not.1 (fun h' => hc ⟨r, hr, h'⟩)))
    · rintro ⟨r, hr, h'⟩ h
      exact h' ((hnil recs).1 h r hr)
  constructor
  · rintro recs ⟨_, _, _, _, _, hw⟩ r hr
    exact ⟨_, contains_judged W _ env n hn r (hw r hr).2⟩
  · intro v
    constructor
    · rintro ⟨recs, outs, h1, h2, h3⟩
      have ho := all2_det (R := GJudged (GroupFn.builtin W) (richDefaults tpl) env [fn c!"contains" [.str n]]) (fun _ _ _ ha hb => gjudged_det ha hb) h2
        (hall recs (fun r hr => (h1.choose_spec.choose_spec.2.2.2 r hr).2))
      subst ho
      rw [hfilter, hnil, hex] at h3
      exact ⟨recs, h1, h3⟩
    · rintro ⟨recs, h1, h3⟩
      refine ⟨recs, _, h1, hall recs (fun r hr => (h1.choose_spec.choose_spec.2.2.2 r hr).2), ?_⟩
      rw [hfilter, hnil, hex]
      exact h3

/-! ## The template of C151 with functions -/

namespace Ex
/-- `contains="state" del="mtu"` -/
def xrAttrs : List (Str × Str) := [(c!"contains", c!"state"), (c!"del", c!"mtu")]
/-- the functions of the attributes -/
def xrFns : List FnCall := [fn c!"contains" [.str c!"state"], fn c!"del" [.str c!"mtu"]]
end Ex

/-- the attributes of the example are functions -/
example : FnAttrs Ex.richCtx Ex.xrAttrs Ex.xrFns := by
  refine .one ⟨by decide, Ex.attr_ok _ (by decide) (by decide) (by decide), rfl, Or.inr ⟨by decide, ?_⟩⟩
    (.one ⟨by decide, Ex.attr_ok _ (by decide) (by decide) (by decide), rfl, Or.inr ⟨by decide, ?_⟩⟩ .nil)
  · show Args.eval (fun _ => none) c!"state" = _
    decide +kernel
  · show Args.eval (fun _ => none) c!"mtu" = _
    decide +kernel

namespace Ex
/-- a context that knows two group functions -/
def pipeCtx : LoadCtx := { richCtx with isGroupFn := fun n => decide (n ∈ [c!"contains", c!"del"]) }
/-- `contains('state') | nobody | del('mtu')` -/
def xpItems : List (Str × AttrText × Str) :=
  [([], ⟨c!"contains", some c!"'state'"⟩, c!" "), (c!" ", ⟨c!"nobody", none⟩, c!" "), (c!" ", ⟨c!"del", some c!"'mtu'"⟩, [])]
end Ex

/-- the same functions as a pipe, with a name that nobody knows -/
example : FnAttrs Ex.pipeCtx [(c!"functions", c!"contains('state') | nobody | del('mtu')")] Ex.xrFns := by
  refine FnAttrs.pipe (items := Ex.xpItems) (piped := [fn c!"contains" [.str c!"state"], fn c!"nobody" [], fn c!"del" [.str c!"mtu"]]) (fs := [])
    (by decide) (by decide) ?_ ?_ rfl (by decide) .nil
  · intro i hi
    simp only [Ex.xpItems, List.mem_cons, List.not_mem_nil, or_false] at hi
    rcases hi with rfl | rfl | rfl
    · exact ⟨by decide, ⟨by decide, by decide, by intro o e; cases e; decide⟩, by decide⟩
    · exact ⟨by decide, ⟨by decide, by decide, by intro o e; cases e⟩, by decide⟩
    · exact ⟨by decide, ⟨by decide, by decide, by intro o e; cases e; decide⟩, by decide⟩
  · refine .cons ⟨rfl, Or.inr ⟨by decide, ?_⟩⟩ (.cons ⟨rfl, rfl, rfl⟩ (.cons ⟨rfl, Or.inr ⟨by decide, ?_⟩⟩ .nil))
    · show Args.eval (fun _ => none) c!"'state'" = _
      decide +kernel
    · show Args.eval (fun _ => none) c!"'mtu'" = _
      decide +kernel

/-- C170: the text of C151 in the group `<group name="host.up*" contains="state" del="mtu">`: of the two records the one with a state passes, and
its `mtu` is deleted. -/
theorem C170_example (W : GroupFn.World) :
    FnMeans (MatchFn.builtin W1) (GroupFn.builtin W) ⟨[], []⟩ [⟨c!"host", 0⟩, ⟨c!"up", 1⟩] false Ex.xrFns Ex.xrTpl Ex.xrText
      (.dict [(.s c!"host", .dict [(.s c!"up", .list [.dict [(.s c!"name", .str c!"a"), (.s c!"state", .str c!"up1")]])])]) := by
  obtain ⟨reads, evs, h1, h2, h3⟩ := ex_recs
  have hd : valueOf (richDefaults Ex.xrTpl) c!"state" = none := by decide +kernel
  refine ⟨_, [some [(.s c!"name", .str c!"a"), (.s c!"state", .str c!"up1")], none], ⟨reads, evs, h1, h2, h3, by decide⟩, ?_,
    Or.inr ⟨by simp, _, _, rfl, .list _, rfl⟩⟩
  refine .cons ?_ (.cons ?_ .nil)
  · have hc := contains_judged W (richDefaults Ex.xrTpl) ⟨[], []⟩ c!"state" hd
      [(.s c!"name", .str c!"a"), (.s c!"state", .str c!"up1"), (.s c!"mtu", .int 9000)] (by decide)
    rw [if_pos (by decide)] at hc
    cases hc with
    | go hc hc2 =>
      cases hc2
      refine .go hc (.go (fun ms _ _ _ => ⟨none, ?_, by simp⟩) (.done (by simp) (by decide)))
      exact C70_del W ms _ (by show List.Nodup _; decide) [c!"mtu"]
  · have hc := contains_judged W (richDefaults Ex.xrTpl) ⟨[], []⟩ c!"state" hd
      [(.s c!"vid", .str c!"10 20"), (.s c!"mtu", .int 1500)] (by decide)
    rw [if_neg (by decide)] at hc
    cases hc with
    | go _ hc2 => cases hc2
    | no hc => exact .no hc

end Props
