import Verif.Spec.GroupDefault
import Verif.Props.Checks
/-!
# C172: the attribute `default` of a flat group, from the template to the results
-/

namespace Props
open Py Spec TTP

theorem richInfo_default (v : RVar) (x : Val) : richInfo ⟨v.name, defaultCall x :: v.opts⟩ = richInfo v := by
  have h1 : (⟨v.name, defaultCall x :: v.opts⟩ : RVar).mark = v.mark := by
    unfold RVar.mark
    rw [List.filterMap_cons]
    rfl
  have h2 : (⟨v.name, defaultCall x :: v.opts⟩ : RVar).checks = v.checks := by
    unfold RVar.checks
    rw [List.filter_cons]
    rfl
  have h3 : exprsOf ⟨v.name, defaultCall x :: v.opts⟩ = exprsOf v := by
    unfold exprsOf
    rw [List.filterMap_cons]
    rfl
  unfold richInfo
  rw [h1, h2, h3]

theorem setDefaults_default (v : RVar) (x : Val) (d : Dict Key Val) :
    setDefaults ⟨v.name, defaultCall x :: v.opts⟩ d = setDefaults v (Dict.set d (.s v.name) x) := rfl

/-- the names that have a default are those seen -/
def SeenIs (seen : List Str) (d : Dict Key Val) : Prop := ∀ n, Dict.has d (.s n) = true ↔ n ∈ seen

theorem has_set (d : Dict Key Val) (n m : Str) (x : Val) : Dict.has (Dict.set d (.s n) x) (.s m) = true ↔ m = n ∨ Dict.has d (.s m) = true := by
  simp only [Dict.has, Option.isSome_iff_exists]
  by_cases h : m = n
  · subst h
    simp [Dict.get?_set_self]
  · rw [Dict.get?_set_ne d x (by intro e; injection e with e; exact h e.symm)]
    simp [h]

theorem seen_setDefaults (v : RVar) (seen : List Str) (d : Dict Key Val) (h : SeenIs seen d) (hn : v.name ∈ seen) : SeenIs seen (setDefaults v d) := by
  rw [setDefaults_eq]
  generalize v.dflts = xs
  induction xs generalizing d with
  | nil => exact h
  | cons x xs ih =>
    simp only [List.map_cons, List.foldl_cons]
    apply ih
    intro n
    rw [has_set, h n]
    constructor
    · rintro (rfl | h)
      · exact hn
      · exact h
    · exact Or.inr

theorem pieces_defaulted (x : Str) (hx : x ≠ c!"_Not_Given_") {seen seen' : List Str} {ps ps' : List RPiece} (h : PiecesDefaulted (.str x) seen ps ps' seen')
    (hr : ∀ v ∈ varsOf ps, v.name ∉ reserved) :
    richEls ps' = richEls ps ∧ (varsOf ps').map richInfo = (varsOf ps).map richInfo ∧
    ∀ d, SeenIs seen d →
      SeenIs seen' ((varsOf ps).foldl (fun d v => setDefaults v (groupDefault (.str x) v.name d)) d) ∧
      (varsOf ps).foldl (fun d v => setDefaults v (groupDefault (.str x) v.name d)) d = (varsOf ps').foldl (fun d v => setDefaults v d) d := by
  induction h with
  | nil => exact ⟨rfl, rfl, fun d h => ⟨h, rfl⟩⟩
  | text _ ih => obtain ⟨h1, h2, h3⟩ := ih hr; exact ⟨by simp only [richEls, h1], h2, h3⟩
  | ign _ ih => obtain ⟨h1, h2, h3⟩ := ih hr; exact ⟨by simp only [richEls, h1], h2, h3⟩
  | @again seen seen' ps ps' v b hs _ ih =>
    obtain ⟨h1, h2, h3⟩ := ih (fun w hw => hr w (by simp [varsOf, hw]))
    refine ⟨by simp only [richEls, h1], by simp only [varsOf, List.map_cons, h2], fun d hd => ?_⟩
    have hg : groupDefault (.str x) v.name d = d := by
      simp only [groupDefault, (hd v.name).2 hs, Bool.not_true, Bool.and_false, Bool.false_and, Bool.false_eq_true, if_false]
    simp only [varsOf, List.foldl_cons, hg]
    exact h3 _ (seen_setDefaults v seen d hd hs)
  | @first seen seen' ps ps' v b b' hs _ ih =>
    obtain ⟨h1, h2, h3⟩ := ih (fun w hw => hr w (by simp [varsOf, hw]))
    refine ⟨by simp only [richEls, h1, richInfo_default], by simp only [varsOf, List.map_cons, h2, richInfo_default], fun d hd => ?_⟩
    have hsk : v.name ∉ skipDefaults := (not_reserved _ (hr v (by simp [varsOf]))).2.1
    have hno : Dict.has d (.s v.name) = false := by
      cases e : Dict.has d (.s v.name)
      · rfl
      · exact absurd ((hd v.name).1 e) hs
    have hg : groupDefault (.str x) v.name d = Dict.set d (.s v.name) (.str x) := by
      simp [groupDefault, hno, hsk, hx]
    simp only [varsOf, List.foldl_cons, hg, setDefaults_default]
    apply h3
    apply seen_setDefaults v _ _ _ (by simp)
    intro n
    rw [has_set, hd n, List.mem_cons]

theorem lines_defaulted (x : Str) (hx : x ≠ c!"_Not_Given_") {seen : List Str} {tpl tpl' : List RLine} (h : LinesDefaulted (.str x) seen tpl tpl')
    (hr : ∀ l ∈ tpl, ∀ v ∈ varsOf l.pieces, v.name ∉ reserved) :
    tpl.map richRx = tpl'.map richRx ∧
    ∀ d, SeenIs seen d → tpl.foldl (fun d l => lineDefaultsD (.str x) l d) d = tpl'.foldl (fun d l => lineDefaults l d) d := by
  induction h with
  | nil => exact ⟨rfl, fun d _ => rfl⟩
  | @cons seen seen' l ps' ls ls' hp _ ih =>
    obtain ⟨i1, i2⟩ := ih (fun l' hl => hr l' (by simp [hl]))
    obtain ⟨h1, h2, h3⟩ := pieces_defaulted x hx hp (hr l (by simp))
    constructor
    · rw [List.map_cons, List.map_cons, i1]
      congr 1
      simp only [richRx, RichRe, h1, h2]
    · intro d hd
      obtain ⟨s1, s2⟩ := h3 d hd
      simp only [List.foldl_cons, lineDefaultsD, lineDefaults]
      rw [← s2]
      exact i2 _ s1

theorem load_default (ctx : LoadCtx) (hp : ctx.patterns = getPattern) (hre : ctx.re = ReText.compile) (path : List PathStep) (hpath : PathOK path)
    (value x : Str) (hval : (Dict.get? ctx.vars value).getD (.str value) = .str x) (hx : x ≠ c!"_Not_Given_")
    (attrs : List (Str × Str)) (fs : List FnCall) (hfs : FnAttrs ctx attrs fs)
    (tpl tpl' : List RLine) (ho : ∀ l ∈ tpl, l.OK ctx) (ho' : ∀ l ∈ tpl', l.OK ctx) (hd : LinesDefaulted (.str x) [] tpl tpl') (tail : Option Str) :
    loadGroups ctx c!"." 0 0 [fnXml (pathText path) ((c!"default", value) :: attrs) tpl tail] =
      .ok [⟨0, pathText path, [], richGrp (pathText path) fs tpl'⟩] := by
  obtain ⟨_, h2, h3⟩ := pathText_chars path hpath
  obtain ⟨l1, l2⟩ := lines_defaulted x hx hd (fun l hl v hv => (rich_vars_ok ctx l (ho l hl) v hv).name.2.2.2)
  apply loadGroups_dflt ctx hp hre (pathText path) h3 _ fs x _ tpl tpl' ho ho' l1
  · rw [l2 [] (by intro n; simp [Dict.has, Dict.get?]), foldl_richDefaults]; rfl
  · have h0 := groupAttrs_dotted ctx (pathText path) (by
      rintro ⟨r, e⟩
      apply h2
      rw [← e]
      simp)
    have hcons : ∀ (nv : Str × Str) rest a, groupAttrs ctx c!"." true 0 (nv :: rest) a =
        (groupAttrs ctx c!"." true 0 [nv] a >>= fun a' => groupAttrs ctx c!"." true 0 rest a') := by
      intro nv rest a
      obtain ⟨n, v⟩ := nv
      simp only [groupAttrs]
      cases groupAttr ctx c!"." true 0 a n v <;> rfl
    have hdef : ∀ a : GAttrs, groupAttrs ctx c!"." true 0 [(c!"default", value)] a = .ok { a with dflt := .str x } := by
      intro a
      show (groupAttr ctx c!"." true 0 a c!"default" value >>= _) = _
      rw [show groupAttr ctx c!"." true 0 a c!"default" value = .ok { a with dflt := (Dict.get? ctx.vars value).getD (.str value) } from rfl, hval]
      rfl
    rw [hcons, h0, ok_bind, hcons, hdef, ok_bind, attrs_fns ctx 0 hfs]
    rfl

/-- C172. The attribute `default="x"` of a flat group (or the name of a template variable with the text `x`) is the same as `default("x")` written
at the first place of every variable: both templates load to the same group, and so what is read from any text, with any group functions, is what
C170 says of the second template. -/
theorem C172_group_default (ctx : LoadCtx) (hp : ctx.patterns = getPattern) (hre : ctx.re = ReText.compile) (mf : MatchFns) (gf : GroupFns)
    (toInt : Bool) (path : List PathStep) (hpath : PathOK path) (hnum : NumbersOK toInt path)
    (value x : Str) (hval : (Dict.get? ctx.vars value).getD (.str value) = .str x) (hx : x ≠ c!"_Not_Given_")
    (attrs : List (Str × Str)) (fs : List FnCall) (hfs : FnAttrs ctx attrs fs) (tpl tpl' : List RLine) (ho : ∀ l ∈ tpl, l.OK ctx)
    (ho' : ∀ l ∈ tpl', l.OK ctx) (hd : LinesDefaulted (.str x) [] tpl tpl') (he : EndsPlain tpl') (tail : Option Str) :
    ∃ gs, loadGroups ctx c!"." 0 0 [fnXml (pathText path) ((c!"default", value) :: attrs) tpl tail] = .ok gs ∧
      loadGroups ctx c!"." 0 0 [fnXml (pathText path) attrs tpl' tail] = .ok gs ∧
      ∀ env, DefaultsPlain env tpl' → ∀ d, RichClear mf env tpl' d → Answered mf gf env fs tpl' d →
        ∃ v, FnMeans mf gf env path toInt fs tpl' d v ∧
          (parseText mf gf toInt [] (gs.map (·.grp)) (dataText d) env (.dict [])).map (fun m => (m.results, m.vars, m.gvars)) =
            .ok (v, env.vars, env.gvars) := by
  refine ⟨_, load_default ctx hp hre path hpath value x hval hx attrs fs hfs tpl tpl' ho ho' hd tail,
    load_fns ctx hp hre path hpath attrs fs hfs tpl' ho' tail, ?_⟩
  intro env hdp d hc ha
  exact fn_means ctx mf gf toInt path hpath hnum fs tpl' ho' he env hdp d hc ha

/-- C172, the parser object: any texts in any inputs. -/
theorem C172_object (ctx : LoadCtx) (hp : ctx.patterns = getPattern) (hre : ctx.re = ReText.compile) (E : Engine) (path : List PathStep)
    (hpath : PathOK path) (hnum : NumbersOK E.toInt path)
    (value x : Str) (hval : (Dict.get? ctx.vars value).getD (.str value) = .str x) (hx : x ≠ c!"_Not_Given_")
    (attrs : List (Str × Str)) (fs : List FnCall) (hfs : FnAttrs ctx attrs fs)
    (tpl tpl' : List RLine) (ho : ∀ l ∈ tpl, l.OK ctx) (ho' : ∀ l ∈ tpl', l.OK ctx) (hd : LinesDefaulted (.str x) [] tpl tpl') (hends : EndsPlain tpl')
    (tail : Option Str) (gs : List TopGroup)
    (hload : loadGroups ctx c!"." 0 0 [fnXml (pathText path) ((c!"default", value) :: attrs) tpl tail] = .ok gs) (tname : Str)
    (vars gvars lookups ovars olookups) (hdef : DefaultsPlain ⟨vars, gvars⟩ tpl')
    (inputs : Dict Str (List Str))
    (hc : ∀ i ∈ inputs, ∀ d ∈ i.2, RichClear E.mf ⟨vars, gvars⟩ tpl' d ∧ Answered E.mf E.gf ⟨vars, gvars⟩ fs tpl' d) :
    ∃ o vs, parseOne E ⟨[⟨tname, gs, inputs.map (fun i => (i.1, ⟨i.2.map (fun d => ⟨.text, .str d⟩), [0], [], .dict []⟩)), vars, [], [],
        lookups, [], c!"per_input", .list []⟩], ovars, olookups, gvars⟩ = .ok o ∧
      All2 (FnMeans E.mf E.gf ⟨vars, gvars⟩ path E.toInt fs tpl') (inputs.flatMap (·.2)) vs ∧ o.templates.map (·.results) = [.list vs] ∧
      o.gvars = gvars := by
  refine C170_object ctx hp hre E path hpath hnum attrs fs hfs tpl' ho' hends tail gs ?_ tname vars gvars lookups ovars olookups hdef inputs hc
  rw [load_default ctx hp hre path hpath value x hval hx attrs fs hfs tpl tpl' ho ho' hd tail] at hload
  rw [load_fns ctx hp hre path hpath attrs fs hfs tpl' ho' tail]
  exact hload

/-! ## What the defaults are -/

/-- the defaults with the group's default (`D`) and without it (`D0`) -/
def Follows (x : Val) (seen : List Str) (D D0 : Dict Key Val) : Prop :=
  ∀ n, (n ∈ seen → valueOf D n = some ((valueOf D0 n).getD x)) ∧ (n ∉ seen → valueOf D n = none ∧ valueOf D0 n = none)

theorem follows_set (x : Val) (seen : List Str) (D D0 : Dict Key Val) (h : Follows x seen D D0) (n : Str) (hn : n ∈ seen) (y : Val) :
    Follows x seen (Dict.set D (.s n) y) (Dict.set D0 (.s n) y) := by
  intro m
  unfold valueOf
  by_cases e : m = n
  · subst e
    simp [Dict.get?_set_self, hn]
  · rw [Dict.get?_set_ne D y (by intro h; injection h with h; exact e h.symm), Dict.get?_set_ne D0 y (by intro h; injection h with h; exact e h.symm)]
    exact h m

theorem follows_defaults (x : Val) (seen : List Str) (v : RVar) (hn : v.name ∈ seen) (D D0 : Dict Key Val) (h : Follows x seen D D0) :
    Follows x seen (setDefaults v D) (setDefaults v D0) := by
  rw [setDefaults_eq, setDefaults_eq]
  generalize v.dflts = xs
  induction xs generalizing D D0 with
  | nil => exact h
  | cons y xs ih =>
    simp only [List.map_cons, List.foldl_cons]
    exact ih _ _ (follows_set x seen D D0 h _ hn y)

theorem follows_pieces (x : Val) {seen seen' : List Str} {ps ps' : List RPiece} (h : PiecesDefaulted x seen ps ps' seen') :
    (∀ n, n ∈ seen' ↔ n ∈ seen ∨ ∃ v ∈ varsOf ps, v.name = n) ∧
    ∀ D D0, Follows x seen D D0 →
      Follows x seen' ((varsOf ps').foldl (fun d v => setDefaults v d) D) ((varsOf ps).foldl (fun d v => setDefaults v d) D0) := by
  induction h with
  | nil => exact ⟨by simp [varsOf], fun _ _ h => h⟩
  | text _ ih => exact ih
  | ign _ ih => exact ih
  | @again seen seen' ps ps' v b hs _ ih =>
    refine ⟨fun n => ?_, fun D D0 h => ?_⟩
    · rw [ih.1 n]
      simp only [varsOf, List.mem_cons, exists_eq_or_imp]
      constructor
      · rintro (h | h)
        · exact Or.inl h
        · exact Or.inr (Or.inr h)
      · rintro (h | rfl | h)
        · exact Or.inl h
        · exact Or.inl hs
        · exact Or.inr h
    · simp only [varsOf, List.foldl_cons]
      exact ih.2 _ _ (follows_defaults x seen v hs D D0 h)
  | @first seen seen' ps ps' v b b' hs _ ih =>
    refine ⟨fun n => ?_, fun D D0 h => ?_⟩
    · rw [ih.1 n]
      simp only [varsOf, List.mem_cons, exists_eq_or_imp]
      constructor
      · rintro ((h | h) | h)
        · exact Or.inr (Or.inl h.symm)
        · exact Or.inl h
        · exact Or.inr (Or.inr h)
      · rintro (h | h | h)
        · exact Or.inl (Or.inr h)
        · exact Or.inl (Or.inl h.symm)
        · exact Or.inr h
    · simp only [varsOf, List.foldl_cons, setDefaults_default]
      apply ih.2
      apply follows_defaults x (v.name :: seen) v (by simp)
      intro m
      unfold valueOf
      by_cases e : m = v.name
      · subst e
        have := (h v.name).2 hs
        unfold valueOf at this
        simp [Dict.get?_set_self, this.2]
      · rw [Dict.get?_set_ne D x (by intro h; injection h with h; exact e h.symm)]
        have := h m
        unfold valueOf at this
        simp only [List.mem_cons, e, false_or]
        exact this

theorem follows_lines (x : Val) {seen : List Str} {tpl tpl' : List RLine} (h : LinesDefaulted x seen tpl tpl') :
    ∀ D D0, Follows x seen D D0 → ∃ seen', (∀ n, n ∈ seen' ↔ n ∈ seen ∨ ∃ l ∈ tpl, ∃ v ∈ varsOf l.pieces, v.name = n) ∧
      Follows x seen' (tpl'.foldl (fun d l => lineDefaults l d) D) (tpl.foldl (fun d l => lineDefaults l d) D0) := by
  induction h with
  | nil => intro D D0 h; exact ⟨_, by simp, h⟩
  | @cons seen seen' l ps' ls ls' hp _ ih =>
    intro D D0 h
    obtain ⟨p1, p2⟩ := follows_pieces x hp
    obtain ⟨s, i1, i2⟩ := ih _ _ (p2 D D0 h)
    refine ⟨s, fun n => ?_, i2⟩
    rw [i1 n, p1 n]
    simp only [List.mem_cons, exists_eq_or_imp, or_assoc]

/-- C172. The defaults of a group with `default="x"`: every variable has the last default that is written at it in the template, and `x` if there is
none; other names have no default. -/
theorem C172_defaults (x : Val) (tpl tpl' : List RLine) (h : LinesDefaulted x [] tpl tpl') (n : Str) :
    ((∃ l ∈ tpl, ∃ v ∈ varsOf l.pieces, v.name = n) → valueOf (richDefaults tpl') n = some ((valueOf (richDefaults tpl) n).getD x)) ∧
    ((¬ ∃ l ∈ tpl, ∃ v ∈ varsOf l.pieces, v.name = n) → valueOf (richDefaults tpl') n = none) := by
  obtain ⟨seen', h1, h2⟩ := follows_lines x h [] [] (fun n => by simp [valueOf, Dict.get?])
  rw [foldl_richDefaults, foldl_richDefaults] at h2
  have h2 := h2 n
  constructor
  · intro hv
    exact h2.1 ((h1 n).2 (Or.inr hv))
  · intro hv
    refine (h2.2 (fun hs => ?_)).1
    rcases (h1 n).1 hs with h | h
    · cases h
    · exact hv h

/-! ## The first lines of the template of C151 in a group with a default -/

namespace Ex
/-- `interface {{ name }}` and ` mtu {{ mtu | DIGIT | to_int | default(1500) }}` -/
def xdTpl : List RLine := [xr0, xr1]
/-- the same with `default("none")` at the variables -/
def xdTpl' : List RLine :=
  [⟨[], [.text c!"interface ", .var ⟨c!"name", [defaultCall (.str c!"none")]⟩ c!" name | default(\"none\") "], []⟩,
    ⟨c!" ", [.text c!"mtu ", .var ⟨c!"mtu", defaultCall (.str c!"none") :: xrMtu.opts⟩
      c!" mtu | default(\"none\") | DIGIT | to_int | default(1500) "], []⟩]

theorem xd_ok : ∀ l ∈ xdTpl', l.OK richCtx := by
  intro l hl
  simp only [xdTpl', List.mem_cons, List.not_mem_nil, or_false] at hl
  rcases hl with rfl | rfl
  · refine rline_ok _ _ _ _ _ (blank_of _ (by decide)) (blank_of _ (by decide)) (by decide) (by decide) ⟨name_ok _ (by decide) (by decide) (by decide) (by decide), ?_⟩ (by decide) ?_
      (by decide) (by rw [← List.isPrefixOf_iff_prefix]; decide) (by rw [← contains_iff]; decide)
    · intro f hf
      simp only [List.mem_cons, List.not_mem_nil, or_false] at hf
      subst hf
      exact Or.inr (Or.inl ⟨rfl, _, rfl⟩)
    · refine ⟨[(c!" ", ⟨c!"default", some c!"\"none\""⟩, c!" ")], c!" ", c!" ", by decide, spaces_of _ (by decide), ?_, .cons ⟨rfl, Or.inr ⟨by decide, ?_⟩⟩ .nil⟩
      · intro i hi
        simp only [List.mem_cons, List.not_mem_nil, or_false] at hi
        subst hi
        exact ⟨spaces_of _ (by decide), attr_ok _ (by decide) (by decide) (by decide)⟩
      · show Args.eval (fun _ => none) c!"\"none\"" = _
        decide +kernel
  · refine rline_ok _ _ _ _ _ (blank_of _ (by decide)) (blank_of _ (by decide)) (by decide) (by decide) ⟨name_ok _ (by decide) (by decide) (by decide) (by decide), ?_⟩ (by decide) ?_
      (by decide) (by rw [← List.isPrefixOf_iff_prefix]; decide) (by rw [← contains_iff]; decide)
    · intro f hf
      simp only [xrMtu, List.mem_cons, List.not_mem_nil, or_false] at hf
      rcases hf with rfl | rfl | rfl | rfl
      · exact Or.inr (Or.inl ⟨rfl, _, rfl⟩)
      · exact Or.inl ⟨by decide, rfl⟩
      · exact Or.inr (Or.inr (Or.inr (Or.inr (Or.inr (Or.inl ⟨by decide, by decide⟩)))))
      · exact Or.inr (Or.inl ⟨rfl, _, rfl⟩)
    · refine ⟨[(c!" ", ⟨c!"default", some c!"\"none\""⟩, c!" "), (c!" ", ⟨c!"DIGIT", none⟩, c!" "), (c!" ", ⟨c!"to_int", none⟩, c!" "),
          (c!" ", ⟨c!"default", some c!"1500"⟩, c!" ")], c!" ", c!" ",
        by decide, spaces_of _ (by decide), ?_,
        .cons ⟨rfl, Or.inr ⟨by decide, ?_⟩⟩ (.cons ⟨rfl, rfl, rfl⟩ (.cons ⟨rfl, rfl, rfl⟩ (.cons ⟨rfl, Or.inr ⟨by decide, ?_⟩⟩ .nil)))⟩
      · intro i hi
        simp only [List.mem_cons, List.not_mem_nil, or_false] at hi
        rcases hi with rfl | rfl | rfl | rfl <;> exact ⟨spaces_of _ (by decide), attr_ok _ (by decide) (by decide) (by decide)⟩
      · show Args.eval (fun _ => none) c!"\"none\"" = _
        decide +kernel
      · show Args.eval (fun _ => none) c!"1500" = _
        decide +kernel

theorem xd_defaulted : LinesDefaulted (.str c!"none") [] xdTpl xdTpl' :=
  .cons (.text (.first (by simp) .nil)) (.cons (.text (.first (by decide) .nil)) .nil)
end Ex

/-- the hypotheses of C172 are met by `<group name="interfaces*" default="none">`; `name` has the group's default, `mtu` its own -/
example : (∀ l ∈ Ex.xdTpl, l.OK Ex.richCtx) ∧ (∀ l ∈ Ex.xdTpl', l.OK Ex.richCtx) ∧ LinesDefaulted (.str c!"none") [] Ex.xdTpl Ex.xdTpl' ∧
    EndsPlain Ex.xdTpl' ∧ valueOf (richDefaults Ex.xdTpl') c!"name" = some (.str c!"none") ∧
    valueOf (richDefaults Ex.xdTpl') c!"mtu" = some (.int 1500) := by
  refine ⟨fun l hl => Ex.xr_ok l ?_, Ex.xd_ok, Ex.xd_defaulted, ?_, by decide +kernel, by decide +kernel⟩
  · simp only [Ex.xdTpl, List.mem_cons, List.not_mem_nil, or_false] at hl
    rcases hl with rfl | rfl <;> simp [Ex.xrTpl]
  · intro j l hj hk
    match j, hj with
    | 0, hj => cases hj; exact absurd hk (by decide)
    | 1, hj => cases hj; exact absurd hk (by decide)
    | n + 2, hj => exact absurd hj (by simp [Ex.xdTpl'])

end Props
