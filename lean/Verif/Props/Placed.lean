import Verif.Proofs.Placed
/-!
# C169: where the records of a flat group go
-/

namespace Props
open Py Spec TTP

theorem placed_means (ctx : LoadCtx) (mf : MatchFns) (gf : GroupFns) (toInt : Bool) (path : List PathStep) (hpath : PathOK path)
    (hnum : NumbersOK toInt path) (tpl : List RLine)
    (ho : ∀ l ∈ tpl, l.OK ctx) (he : EndsPlain tpl) (env : Env) (hd : DefaultsPlain env tpl) (d : Str) (hc : RichClear mf env tpl d) :
    ∃ v, PlacedMeans mf env path toInt tpl d v ∧
      (parseText mf gf toInt [] [richGrp (pathText path) [] tpl] (dataText d) env (.dict [])).map (fun m => (m.results, m.vars, m.gvars)) =
        .ok (v, env.vars, env.gvars) := by
  obtain ⟨reads, hr⟩ := rich_of_clear mf env tpl _ hc
  obtain ⟨evs, recs, h1, h2, h3, h4⟩ := parse_rich ctx mf gf toInt (pathText path) (pathText_chars path hpath).1 [] tpl ho (splitC '\n' d)
    (splitC_ne_nil '\n' d) (fun t ht => splitC_no_sep '\n' d t ht) env hd he reads hr
  obtain ⟨k1, k2⟩ := kept_all gf (richDefaults tpl) env recs h3
  have h4 := h4 k1
  rw [k2, join_splitC, parse_pathText path hpath] at h4
  by_cases hnil : recs = []
  · subst hnil
    exact ⟨.dict [], ⟨reads, evs, [], hr, h1, h2, Or.inl ⟨rfl, rfl⟩⟩, h4⟩
  · obtain ⟨last, x, g1, g2, g3⟩ := many_fresh toInt path hpath hnum recs h3 hnil
    rw [g3] at h4
    exact ⟨_, ⟨reads, evs, recs, hr, h1, h2, Or.inr ⟨hnil, last, x, g1, g2, rfl⟩⟩, h4⟩

theorem load_placed (ctx : LoadCtx) (hp : ctx.patterns = getPattern) (hre : ctx.re = ReText.compile) (path : List PathStep) (hpath : PathOK path)
    (tpl : List RLine) (ho : ∀ l ∈ tpl, l.OK ctx) (tail : Option Str) :
    loadGroups ctx c!"." 0 0 [richXml (pathText path) tpl tail] = .ok [⟨0, pathText path, [], richGrp (pathText path) [] tpl⟩] := by
  obtain ⟨_, h2, h3⟩ := pathText_chars path hpath
  apply loadGroups_rich ctx hp hre (pathText path) h3 _ tpl ho tail
  rintro ⟨r, e⟩
  apply h2
  rw [← e]
  simp

/-- C169. A template with one flat group whose name is any path of names and asterisks: loading it succeeds, and for every text whose
lines are read in one way at most, and for all functions and variables around, the records are put at the place the path means. -/
theorem C169_placed_template (ctx : LoadCtx) (hp : ctx.patterns = getPattern) (hre : ctx.re = ReText.compile) (mf : MatchFns) (gf : GroupFns)
    (toInt : Bool) (path : List PathStep) (hpath : PathOK path) (hnum : NumbersOK toInt path) (tpl : List RLine) (ho : ∀ l ∈ tpl, l.OK ctx)
    (he : EndsPlain tpl) (tail : Option Str) :
    ∃ gs, loadGroups ctx c!"." 0 0 [richXml (pathText path) tpl tail] = .ok gs ∧
      ∀ env, DefaultsPlain env tpl → ∀ d, RichClear mf env tpl d → ∃ v, PlacedMeans mf env path toInt tpl d v ∧
        (parseText mf gf toInt [] (gs.map (·.grp)) (dataText d) env (.dict [])).map (fun m => (m.results, m.vars, m.gvars)) =
          .ok (v, env.vars, env.gvars) := by
  refine ⟨_, load_placed ctx hp hre path hpath tpl ho tail, ?_⟩
  intro env hd d hc
  exact placed_means ctx mf gf toInt path hpath hnum tpl ho he env hd d hc

theorem form_placed (toInt : Bool) (path : List PathStep) (hpath : PathOK path) (x : Val) :
    formDatum (placedAt toInt path x) = .ok (placedAt toInt path x) := by
  obtain ⟨p, ps, rfl⟩ := List.exists_cons_of_ne_nil hpath.1
  have hk : pathKey toInt p.name ≠ .s anon := by
    unfold pathKey
    split
    · exact fun e => by cases e
    · intro e; exact (hpath.2 p (by simp)).1.2.2.1 (Key.s.inj e)
  cases ps with
  | nil => simp [placedAt, formDatum, Dict.get?, hk, pure_ok]
  | cons q qs => simp [placedAt, formDatum, Dict.get?, hk, pure_ok]

/-- C169, the parser object: the template is loaded, any texts are given to it in any inputs, `parse` with one process succeeds, and
the results of the template are the meanings of the texts, in order; global variables are not changed. -/
theorem C169_object (ctx : LoadCtx) (hp : ctx.patterns = getPattern) (hre : ctx.re = ReText.compile) (E : Engine) (path : List PathStep)
    (hpath : PathOK path) (hnum : NumbersOK E.toInt path) (tpl : List RLine) (ho : ∀ l ∈ tpl, l.OK ctx) (hends : EndsPlain tpl)
    (tail : Option Str) (gs : List TopGroup) (hload : loadGroups ctx c!"." 0 0 [richXml (pathText path) tpl tail] = .ok gs) (tname : Str)
    (vars gvars lookups ovars olookups) (hdef : DefaultsPlain ⟨vars, gvars⟩ tpl)
    (inputs : Dict Str (List Str)) (hc : ∀ i ∈ inputs, ∀ d ∈ i.2, RichClear E.mf ⟨vars, gvars⟩ tpl d) :
    ∃ o vs, parseOne E ⟨[⟨tname, gs, inputs.map (fun i => (i.1, ⟨i.2.map (fun d => ⟨.text, .str d⟩), [0], [], .dict []⟩)), vars, [], [],
        lookups, [], c!"per_input", .list []⟩], ovars, olookups, gvars⟩ = .ok o ∧
      All2 (PlacedMeans E.mf ⟨vars, gvars⟩ path E.toInt tpl) (inputs.flatMap (·.2)) vs ∧ o.templates.map (·.results) = [.list vs] ∧
      o.gvars = gvars := by
  have hgs : gs = [⟨0, pathText path, [], richGrp (pathText path) [] tpl⟩] := by
    rw [load_placed ctx hp hre path hpath tpl ho tail] at hload
    simpa using hload.symm
  subst hgs
  refine object_of E _ _ vars gvars (RichClear E.mf ⟨vars, gvars⟩ tpl) _ ?_ tname lookups ovars olookups inputs hc
  intro d hcl
  obtain ⟨v, hv, hpt⟩ := placed_means ctx E.mf E.gf E.toInt path hpath hnum tpl ho hends ⟨vars, gvars⟩ hdef d hcl
  refine ⟨v, hv, ?_, hpt⟩
  obtain ⟨reads, evs, recs, _, _, _, ⟨_, rfl⟩ | ⟨_, last, x, _, _, rfl⟩⟩ := hv
  · simp [formDatum, Dict.get?, pure_ok]
  · exact form_placed _ path hpath x

/-- C169 and C151 speak about the same: the group `name*`. -/
theorem C169_of_list (mf : MatchFns) (env : Env) (name : Str) (toInt : Bool) (tpl : List RLine) (d : Str) (v : Val) :
    PlacedMeans mf env [⟨name, 1⟩] toInt tpl d v ↔ RichMeans mf env name toInt tpl d v := by
  constructor
  · rintro ⟨reads, evs, recs, h1, h2, h3, ⟨rfl, rfl⟩ | ⟨hne, last, x, hl, hg, rfl⟩⟩
    · exact ⟨reads, evs, [], h1, h2, h3, by simp⟩
    · refine ⟨reads, evs, recs, h1, h2, h3, ?_⟩
      simp only [List.getLast?_singleton, Option.some.injEq] at hl
      subst hl
      cases hg
      rw [if_neg hne]; rfl
  · rintro ⟨reads, evs, recs, h1, h2, h3, rfl⟩
    refine ⟨reads, evs, recs, h1, h2, h3, ?_⟩
    by_cases hne : recs = []
    · exact Or.inl ⟨hne, by simp [hne]⟩
    · exact Or.inr ⟨hne, ⟨name, 1⟩, .list (recs.map .dict), rfl, .list recs, by rw [if_neg hne]; rfl⟩

theorem sameDict {a b : Dict Key Val} (h : ∀ k, Dict.get? a k = Dict.get? b k) : SameVal (.dict a) (.dict b) := by
  refine .dict (by intro k; rw [h k]) ?_
  intro k x y hx hy
  rw [h k, hy] at hx
  cases hx
  exact same_refl _

theorem same_key (k : Key) {v w : Val} (h : SameVal v w) : SameVal (.dict [(k, v)]) (.dict [(k, w)]) := by
  refine .dict (by intro q; simp only [Dict.get?]; by_cases e : k = q <;> simp [e]) ?_
  intro q x y hx hy
  simp only [Dict.get?] at hx hy
  by_cases e : k = q
  · simp only [e, if_true, Option.some.injEq] at hx hy
    subst hx hy; exact h
  · simp [e] at hx

theorem same_one {v w : Val} (h : SameVal v w) : SameVal (.list [v]) (.list [w]) := by
  refine .list rfl ?_
  intro i x y hx hy
  cases i with
  | zero => simp at hx hy; subst hx hy; exact h
  | succ i => simp at hx

theorem same_placed (toInt : Bool) {v w : Val} (h : SameVal v w) : ∀ path, SameVal (placedAt toInt path v) (placedAt toInt path w)
  | [] => h
  | [_] => same_key _ h
  | p :: q :: ps => by
    have ih := same_placed toInt h (q :: ps)
    simp only [placedAt]
    split
    · exact same_key _ (same_one ih)
    · exact same_key _ ih

/-- C169: a text has one meaning, up to the order of the keys. -/
theorem C169_one_meaning (mf : MatchFns) (env : Env) (path : List PathStep) (toInt : Bool) (tpl : List RLine) (d : Str) (v w : Val)
    (hv : PlacedMeans mf env path toInt tpl d v) (hw : PlacedMeans mf env path toInt tpl d w) : SameVal v w := by
  obtain ⟨r1, e1, c1, h1, h2, h3, hv⟩ := hv
  obtain ⟨r2, e2, c2, g1, g2, g3, hw⟩ := hw
  have hr := all2_det (R := RichReads mf env tpl) (fun _ _ _ ha hb => richReads_det ha hb) h1 g1
  subst hr
  have he : e1 = e2 := by
    rcases h2 with ⟨a, b, c⟩ | ⟨a, c⟩ <;> rcases g2 with ⟨a', b', c'⟩ | ⟨a', c'⟩
    · rw [c, c']
    · exact absurd ⟨a, b⟩ a'
    · exact absurd ⟨a', b'⟩ a
    · rw [c, c']
  subst he
  have hs : All2 (fun a b : Dict Key Val => ∀ k, Dict.get? a k = Dict.get? b k) c1 c2 :=
    all2_same (fun x a b ha hb k => by rw [ha k, hb k]) h3 g3
  have hlen := all2_len hs
  have hlist : SameVal (.list (c1.map .dict)) (.list (c2.map .dict)) := by
    refine .list (by simp [hlen]) ?_
    intro i x y hx hy
    simp only [List.getElem?_map, Option.map_eq_some_iff] at hx hy
    obtain ⟨a, ha, rfl⟩ := hx
    obtain ⟨b, hb, rfl⟩ := hy
    obtain ⟨b', hb', hab⟩ := all2_get hs i a ha
    rw [hb] at hb'
    cases hb'
    exact sameDict hab
  rcases hv with ⟨n1, rfl⟩ | ⟨n1, l1, x1, a1, b1, rfl⟩ <;> rcases hw with ⟨n2, rfl⟩ | ⟨n2, l2, x2, a2, b2, rfl⟩
  · exact same_refl _
  · subst n1; exact absurd (List.length_eq_zero_iff.1 hlen.symm) n2
  · subst n2; exact absurd (List.length_eq_zero_iff.1 hlen) n1
  · rw [a1] at a2
    cases a2
    apply same_placed
    generalize l1.stars = st at b1 b2
    cases b1 with
    | list => cases b2; exact hlist
    | one r =>
      cases b2 with
      | one r' => cases hs with | cons h _ => exact sameDict h
      | several _ h => simp at hlen; omega
    | several _ h =>
      cases b2 with
      | one r' => simp at hlen; omega
      | several _ h => exact hlist
    | merged _ e _ h =>
      cases b2 with
      | merged _ e' _ h' =>
        apply sameDict
        intro k
        rw [h k, h' k]
        clear h h' hlist n1 n2 hlen h3 g3
        induction hs with
        | nil => rfl
        | cons hab _ ih => simp only [List.findSome?_cons, hab k, ih]

/-! ## The template of C151 under other names -/

theorem ex_recs : ∃ reads evs, All2 (RichReads (MatchFn.builtin W1) ⟨[], []⟩ Ex.xrTpl) (splitC '\n' Ex.xrText) reads ∧ RichEvs Ex.xrTpl reads evs ∧
    All2 (IsRecordOf (richDefaults Ex.xrTpl)) (segments evs)
      [[(.s c!"name", .str c!"a"), (.s c!"state", .str c!"up1"), (.s c!"mtu", .int 9000)], [(.s c!"vid", .str c!"10 20"), (.s c!"mtu", .int 1500)]] := by
  obtain ⟨reads, evs, recs, h1, h2, h3, hv⟩ := C151_example
  by_cases hne : recs = []
  · rw [if_pos hne] at hv; simp at hv
  · rw [if_neg hne] at hv
    simp only [Val.dict.injEq, List.cons.injEq, Prod.mk.injEq, Val.list.injEq, and_true] at hv
    have := hv.2
    cases recs with
    | nil => exact absurd rfl hne
    | cons a recs =>
      cases recs with
      | nil => simp at this
      | cons b recs =>
        cases recs with
        | nil =>
          simp only [List.map_cons, List.map_nil, List.cons.injEq, Val.dict.injEq, and_true] at this
          rw [← this.1, ← this.2] at h3
          exact ⟨reads, evs, h1, h2, h3⟩
        | cons => simp at this

/-- the hypotheses of C169 are met: the group `sites*.interfaces`; `host.facts**` -/
example : PathOK [⟨c!"sites", 1⟩, ⟨c!"interfaces", 0⟩] ∧ NumbersOK true [⟨c!"sites", 1⟩, ⟨c!"interfaces", 0⟩] ∧
    pathText [⟨c!"sites", 1⟩, ⟨c!"interfaces", 0⟩] = c!"sites*.interfaces" ∧
    PathOK [⟨c!"host", 0⟩, ⟨c!"facts", 2⟩] ∧ pathText [⟨c!"host", 0⟩, ⟨c!"facts", 2⟩] = c!"host.facts**" := by
  refine ⟨⟨by simp, ?_⟩, ?_, by decide, ⟨by simp, ?_⟩, by decide⟩
  · intro p hp
    simp only [List.mem_cons, List.not_mem_nil, or_false] at hp
    rcases hp with rfl | rfl <;> exact ⟨⟨by decide, by decide, by decide, by decide⟩, by decide⟩
  · intro _ _ _ _ p hp
    simp only [List.mem_cons, List.not_mem_nil, or_false] at hp
    rcases hp with rfl | rfl <;> decide
  · intro p hp
    simp only [List.mem_cons, List.not_mem_nil, or_false] at hp
    rcases hp with rfl | rfl <;> exact ⟨⟨by decide, by decide, by decide, by decide⟩, by decide⟩

/-- C169: the template and the text of C151 in the group `sites*.interfaces` (two records: a list) and in the group `host.facts**` (one
dictionary, the `mtu` of the first record counts). -/
theorem C169_example :
    PlacedMeans (MatchFn.builtin W1) ⟨[], []⟩ [⟨c!"sites", 1⟩, ⟨c!"interfaces", 0⟩] false Ex.xrTpl Ex.xrText
      (.dict [(.s c!"sites", .list [.dict [(.s c!"interfaces", .list [
        .dict [(.s c!"name", .str c!"a"), (.s c!"state", .str c!"up1"), (.s c!"mtu", .int 9000)],
        .dict [(.s c!"vid", .str c!"10 20"), (.s c!"mtu", .int 1500)]])]])]) ∧
    PlacedMeans (MatchFn.builtin W1) ⟨[], []⟩ [⟨c!"host", 0⟩, ⟨c!"facts", 2⟩] false Ex.xrTpl Ex.xrText
      (.dict [(.s c!"host", .dict [(.s c!"facts",
        .dict [(.s c!"name", .str c!"a"), (.s c!"state", .str c!"up1"), (.s c!"mtu", .int 9000), (.s c!"vid", .str c!"10 20")])])]) := by
  obtain ⟨reads, evs, h1, h2, h3⟩ := ex_recs
  constructor
  · exact ⟨reads, evs, _, h1, h2, h3, Or.inr ⟨by simp, _, _, rfl, .several _ (by decide), rfl⟩⟩
  · refine ⟨reads, evs, _, h1, h2, h3, Or.inr ⟨by simp, _, _, rfl, .merged _ _ (by decide) ?_, rfl⟩⟩
    intro k
    simp only [Dict.get?, List.findSome?_cons, List.findSome?_nil]
    by_cases k1 : Key.s c!"name" = k
    · simp [k1]
    · by_cases k2 : Key.s c!"state" = k
      · simp [k1, k2]
      · by_cases k3 : Key.s c!"mtu" = k
        · simp [k1, k2, k3]
        · by_cases k4 : Key.s c!"vid" = k <;> simp [k1, k2, k3, k4]

end Props
