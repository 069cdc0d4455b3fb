import Verif.Props.Rich
/-!
# C151: a template whose variables use template variables, expressions and chains
-/

set_option synthInstance.maxSize 4000

namespace TTP
open Py Spec

/-- no class of the expression takes a line break, and the expression is simple -/
def lineSafe : Re → Bool
  | .eps => true
  | .cls c => !c.test '\n'
  | .seq a b => lineSafe a && lineSafe b
  | .alt a b => lineSafe a && lineSafe b
  | .star _ r => lineSafe r
  | .cap _ _ => false
  | .look _ => false
  | .eos => false

theorem lineSafe_ok (r : Re) (h : lineSafe r = true) : SimpleRe r ∧ ∀ s, ∀ x ∈ Re.run r s, '\n' ∉ x.1 := by
  induction r with
  | eps => exact ⟨trivial, by intro s x hx; simp [Re.run] at hx; subst hx; simp⟩
  | cls c =>
    refine ⟨trivial, ?_⟩
    intro s x hx
    cases s with
    | nil => simp [Re.run] at hx
    | cons a s =>
      simp only [Re.run] at hx
      by_cases ha : c.test a = true
      · simp only [ha, if_true, List.mem_singleton] at hx
        subst hx
        simp only [List.mem_singleton]
        rintro rfl
        simp [lineSafe, ha] at h
      · simp [ha] at hx
  | seq a b iha ihb =>
    simp only [lineSafe, Bool.and_eq_true] at h
    refine ⟨⟨(iha h.1).1, (ihb h.2).1⟩, ?_⟩
    intro s x hx
    simp only [Re.run, List.mem_flatMap, List.mem_map] at hx
    obtain ⟨y, hy, z, hz, rfl⟩ := hx
    simp [(iha h.1).2 _ y hy, (ihb h.2).2 _ z hz]
  | alt a b iha ihb =>
    simp only [lineSafe, Bool.and_eq_true] at h
    refine ⟨⟨(iha h.1).1, (ihb h.2).1⟩, ?_⟩
    intro s x hx
    simp only [Re.run, List.mem_append] at hx
    rcases hx with hx | hx
    · exact (iha h.1).2 _ x hx
    · exact (ihb h.2).2 _ x hx
  | star g r ih =>
    obtain ⟨h1, h2⟩ := ih h
    refine ⟨h1, ?_⟩
    intro s x hx
    have key : ∀ n s x, x ∈ Re.starRun (Re.run r) g n s → '\n' ∉ x.1 := by
      intro n
      induction n with
      | zero => intro s x hx; simp [Re.starRun] at hx; subst hx; simp
      | succ n ihn =>
        intro s x hx
        rw [Re.mem_starRun] at hx
        rcases hx with rfl | ⟨k, ek, y, hy, _, z, hz, rfl⟩
        · simp
        · cases ek
          simp [h2 _ y hy, ihn _ z hz]
    exact key _ _ x hx
  | cap => cases h
  | look => cases h
  | eos => cases h

theorem lineExpr_of (t : Str) (h : (ReText.compile t).any lineSafe = true) : LineExpr t := by
  cases hr : ReText.compile t with
  | none => rw [hr] at h; cases h
  | some r =>
    rw [hr] at h
    obtain ⟨h1, h2⟩ := lineSafe_ok r h
    refine ⟨⟨r, hr, h1⟩, ?_⟩
    rintro u ⟨r', e, x, hx, rfl⟩
    rw [hr] at e
    cases e
    exact h2 _ x hx

end TTP

namespace Props
open Py Spec TTP

namespace Ex

/-- template variables: an expression, a text, a pipe of functions -/
def varCtx : LoadCtx := { richCtx with vars := [(c!"IFNAME", .str c!"ge[0-9/]+"), (c!"good", .str c!"up"), (c!"number", .str c!"DIGIT | to_int")] }

/-- what `name | re("IFNAME")` means -/
def xvName : RVar := ⟨c!"name", [fn c!"re" [.str c!"ge[0-9/]+"]]⟩
/-- what `mtu | chain("number") | default(1500)` means -/
def xvMtu : RVar := ⟨c!"mtu", [fn c!"DIGIT" [], fn c!"to_int" [], fn c!"default" [.int 1500]]⟩
/-- what `state | contains("good") | chain("nothing")` means -/
def xvState : RVar := ⟨c!"state", [fn c!"contains" [.str c!"up"]]⟩

/-- `interface {{ name | re("IFNAME") }}` -/
def xv0 : RLine := ⟨[], [.text c!"interface ", .var xvName c!" name | re(\"IFNAME\") "], []⟩
/-- ` mtu {{ mtu | chain("number") | default(1500) }}` -/
def xv1 : RLine := ⟨c!" ", [.text c!"mtu ", .var xvMtu c!" mtu | chain(\"number\") | default(1500) "], []⟩
/-- ` state {{ state | contains("good") | chain("nothing") }}` -/
def xv2 : RLine := ⟨c!" ", [.text c!"state ", .var xvState c!" state | contains(\"good\") | chain(\"nothing\") "], []⟩
/-- the template -/
def xvTpl : List RLine := [xv0, xv1, xv2]

theorem vline_ok (ctx : LoadCtx) (indent t0 : Str) (v : RVar) (b trail : Str) (hind : ∀ c ∈ indent, Blank c) (htr : ∀ c ∈ trail, Blank c)
    (ht : t0.all (fun c => c != '{' && (c == ' ' || !isSpace c)) = true)
    (hb : b.all (fun c => c != '}' && (c == ' ' || !isSpace c)) = true) (hv : v.OK) (hw : v.Meant ctx b)
    (hfirst : t0.head?.any (fun c => !isSpace c) = true) (hcom : ¬ c!"##" <+: t0 ++ (c!"{{" ++ b ++ c!"}}"))
    (hex : ¬ c!"_exact_" <:+: indent ++ (t0 ++ (c!"{{" ++ b ++ c!"}}"))) :
    RLine.OK ctx ⟨indent, [.text t0, .var v b], trail⟩ := by
  have inl : ∀ (s : Str) (p : Char), s.all (fun c => c != p && (c == ' ' || !isSpace c)) = true → p ∉ s ∧ OneLined s := by
    intro s p h
    rw [List.all_eq_true] at h
    constructor
    · intro hm; have := h p hm; simp at this
    · intro c hc
      have := h c hc
      simp only [Bool.and_eq_true, Bool.or_eq_true, beq_iff_eq, Bool.not_eq_true'] at this
      rcases this.2 with h | h
      · exact Or.inl (Or.inl h)
      · exact Or.inr h
  have hbody : (⟨indent, [.text t0, .var v b], trail⟩ : RLine).body = t0 ++ (c!"{{" ++ b ++ c!"}}") := by
    simp [RLine.body, RPiece.source]
  refine ⟨hind, htr, ?_, by simp [Parted], ?_, by simp [varsOf], by simp [varsOf], ?_, ?_, by rw [hbody]; exact hcom, by rw [hbody]; exact hex, by simp⟩
  · intro t hm
    simp only [List.mem_cons, RPiece.text.injEq, reduceCtorEq, List.not_mem_nil, or_false] at hm
    subst hm
    exact inl _ _ ht
  · intro v' b' hm
    simp only [List.mem_cons, reduceCtorEq, RPiece.var.injEq, List.not_mem_nil, or_false, false_or] at hm
    obtain ⟨rfl, rfl⟩ := hm
    exact ⟨hv, hw, inl _ _ hb⟩
  · cases t0 with
    | nil => simp at hfirst
    | cons c t => exact ⟨c, t ++ (c!"{{" ++ b ++ c!"}}"), by rw [hbody]; rfl, by simpa using hfirst⟩
  · exact ⟨t0 ++ (c!"{{" ++ b ++ c!"}"), '}', by rw [hbody]; simp, by decide⟩

theorem xv_ok : ∀ l ∈ xvTpl, l.OK varCtx := by
  intro l hl
  simp only [xvTpl, List.mem_cons, List.not_mem_nil, or_false] at hl
  rcases hl with rfl | rfl | rfl
  · refine vline_ok _ _ _ _ _ _ (blank_of _ (by decide)) (blank_of _ (by decide)) (by decide) (by decide) ⟨name_ok _ (by decide) (by decide) (by decide) (by decide), ?_⟩ ?_
      (by decide) (by rw [← List.isPrefixOf_iff_prefix]; decide) (by rw [← contains_iff]; decide)
    · intro f hf
      simp only [xvName, List.mem_cons, List.not_mem_nil, or_false] at hf
      subst hf
      exact Or.inr (Or.inr (Or.inr (Or.inr (Or.inr (Or.inr ⟨rfl, _, rfl, lineExpr_of _ (by decide +kernel)⟩)))))
    · refine ⟨[⟨c!"re", [.str c!"IFNAME"], []⟩], [[fn c!"re" [.str c!"ge[0-9/]+"]]], ?_,
        .cons (.one (.expr (f := ⟨c!"re", [.str c!"IFNAME"], []⟩) (s := c!"IFNAME") (by decide) (Or.inr ⟨[], rfl⟩) (Or.inl ⟨by decide, rfl⟩))) .nil, rfl⟩
      refine ⟨[(c!" ", ⟨c!"re", some c!"\"IFNAME\""⟩, c!" ")], c!" ", c!" ", by decide, spaces_of _ (by decide), ?_, .cons ⟨rfl, Or.inr ⟨by decide, ?_⟩⟩ .nil⟩
      · intro i hi
        simp only [List.mem_cons, List.not_mem_nil, or_false] at hi
        subst hi
        exact ⟨spaces_of _ (by decide), attr_ok _ (by decide) (by decide) (by decide)⟩
      · show Args.eval (fun _ => none) c!"\"IFNAME\"" = _
        decide +kernel
  · refine vline_ok _ _ _ _ _ _ (blank_of _ (by decide)) (blank_of _ (by decide)) (by decide) (by decide) ⟨name_ok _ (by decide) (by decide) (by decide) (by decide), ?_⟩ ?_
      (by decide) (by rw [← List.isPrefixOf_iff_prefix]; decide) (by rw [← contains_iff]; decide)
    · intro f hf
      simp only [xvMtu, List.mem_cons, List.not_mem_nil, or_false] at hf
      rcases hf with rfl | rfl | rfl
      · exact Or.inl ⟨by decide, rfl⟩
      · exact Or.inr (Or.inr (Or.inr (Or.inr (Or.inr (Or.inl ⟨by decide, by decide⟩)))))
      · exact Or.inr (Or.inl ⟨rfl, _, rfl⟩)
    · refine ⟨[⟨c!"chain", [.str c!"number"], []⟩, ⟨c!"default", [.int 1500], []⟩], [[fn c!"DIGIT" [], fn c!"to_int" []], [fn c!"default" [.int 1500]]], ?_,
        .cons (.chain (v := .str c!"DIGIT | to_int") (fs := [⟨c!"DIGIT", [], []⟩, ⟨c!"to_int", [], []⟩]) rfl (Or.inl ⟨_, rfl, ?_⟩)
          (.cons (.pattern (f := ⟨c!"DIGIT", [], []⟩) (s := c!"DIGIT") (by decide) (Or.inl ⟨rfl, rfl⟩) (by decide) (by decide)) (.cons (.self (by decide) (by decide)) .nil)))
          (.cons (.one (.self (by decide) (by decide))) .nil), rfl⟩
      · refine ⟨[(c!" ", ⟨c!"chain", some c!"\"number\""⟩, c!" "), (c!" ", ⟨c!"default", some c!"1500"⟩, c!" ")], c!" ", c!" ", by decide, spaces_of _ (by decide), ?_,
          .cons ⟨rfl, Or.inr ⟨by decide, ?_⟩⟩ (.cons ⟨rfl, Or.inr ⟨by decide, ?_⟩⟩ .nil)⟩
        · intro i hi
          simp only [List.mem_cons, List.not_mem_nil, or_false] at hi
          rcases hi with rfl | rfl <;> exact ⟨spaces_of _ (by decide), attr_ok _ (by decide) (by decide) (by decide)⟩
        · show Args.eval (fun _ => none) c!"\"number\"" = _
          decide +kernel
        · show Args.eval (fun _ => none) c!"1500" = _
          decide +kernel
      · refine ⟨[([], ⟨c!"DIGIT", none⟩, c!" "), (c!" ", ⟨c!"to_int", none⟩, [])], by simp, by decide, ?_, .cons ⟨rfl, rfl, rfl⟩ (.cons ⟨rfl, rfl, rfl⟩ .nil)⟩
        intro i hi
        simp only [List.mem_cons, List.not_mem_nil, or_false] at hi
        rcases hi with rfl | rfl <;> exact ⟨spaces_of _ (by decide), attr_ok _ (by decide) (by decide) (by decide)⟩
  · refine vline_ok _ _ _ _ _ _ (blank_of _ (by decide)) (blank_of _ (by decide)) (by decide) (by decide) ⟨name_ok _ (by decide) (by decide) (by decide) (by decide), ?_⟩ ?_
      (by decide) (by rw [← List.isPrefixOf_iff_prefix]; decide) (by rw [← contains_iff]; decide)
    · intro f hf
      simp only [xvState, List.mem_cons, List.not_mem_nil, or_false] at hf
      subst hf
      exact Or.inr (Or.inr (Or.inr (Or.inr (Or.inl (by decide)))))
    · refine ⟨[⟨c!"contains", [.str c!"good"], []⟩, ⟨c!"chain", [.str c!"nothing"], []⟩], [[fn c!"contains" [.str c!"up"]], []], ?_,
        .cons (.one (.arg (f := ⟨c!"contains", [.str c!"good"], []⟩) (by decide) ?_)) (.cons (.noChain (by decide)) .nil), rfl⟩
      · refine ⟨[(c!" ", ⟨c!"contains", some c!"\"good\""⟩, c!" "), (c!" ", ⟨c!"chain", some c!"\"nothing\""⟩, c!" ")], c!" ", c!" ", by decide, spaces_of _ (by decide), ?_,
          .cons ⟨rfl, Or.inr ⟨by decide, ?_⟩⟩ (.cons ⟨rfl, Or.inr ⟨by decide, ?_⟩⟩ .nil)⟩
        · intro i hi
          simp only [List.mem_cons, List.not_mem_nil, or_false] at hi
          rcases hi with rfl | rfl <;> exact ⟨spaces_of _ (by decide), attr_ok _ (by decide) (by decide) (by decide)⟩
        · show Args.eval (fun _ => none) c!"\"good\"" = _
          decide +kernel
        · show Args.eval (fun _ => none) c!"\"nothing\"" = _
          decide +kernel
      · intro a ha
        simp only [List.mem_cons, List.not_mem_nil, or_false] at ha
        subst ha
        rintro (⟨_, e⟩ | ⟨_, e⟩) <;> cases e

theorem vcaps (ctx : LoadCtx) (l : RLine) (ho : l.OK ctx) (t : Str) (ht : '\n' ∉ t) (c : List (Str × Str)) :
    (∃ vals, l.Fits t vals ∧ c = capsOf vals) ↔ c ∈ xrCaps l t := by
  have hr := rich_reader ctx l ho
  rw [xrCaps, List.mem_map]
  constructor
  · intro h
    obtain ⟨x, hx, e⟩ := hr.complete t [] ht c h
    exact ⟨x, hx, e⟩
  · rintro ⟨h, hm, rfl⟩
    exact hr.sound t [] ht h hm

/-- a line that is read in one way -/
theorem vread (ctx : LoadCtx) (tpl : List RLine) (hok : ∀ l ∈ tpl, l.OK ctx) (mf : MatchFns) (env : Env) (t : Str) (ht : '\n' ∉ t) (j : Nat) (l : RLine)
    (hj : tpl[j]? = some l) (vals : List (RVar × Str))
    (hv : vals.map (·.1) = varsOf l.pieces) (out : Option (Dict Key Val)) (hval : Valued mf env vals out)
    (h : tpl.map (fun l => (xrCaps l t).eraseDups) = (List.range tpl.length).map (fun i => if i = j then [capsOf vals] else [])) :
    RichReads mf env tpl t (some (j, out)) := by
  have at_i : ∀ (i : Nat) l', tpl[i]? = some l' → (xrCaps l' t).eraseDups = if i = j then [capsOf vals] else [] := by
    intro i l' hi
    have h1 := congrArg (fun x => x[i]?) h
    have hil : i < tpl.length := (List.getElem?_eq_some_iff.1 hi).1
    simp only [List.getElem?_map, hi, Option.map_some, List.getElem?_range hil, Option.some.injEq] at h1
    exact h1
  obtain ⟨vals0, hf0, e0⟩ := (vcaps ctx l (hok l (List.mem_of_getElem? hj)) t ht (capsOf vals)).2 (by
    rw [← List.mem_eraseDups, at_i j l hj]; simp)
  have e1 := vals_inj vals0 vals (by rw [fits_vars l t vals0 hf0, hv]) e0.symm
  subst e1
  refine ⟨l, vals0, hj, hf0, hval, ?_⟩
  intro i l' vals' hi hf'
  have hm := (vcaps ctx l' (hok l' (List.mem_of_getElem? hi)) t ht (capsOf vals')).1 ⟨vals', hf', rfl⟩
  rw [← List.mem_eraseDups, at_i i l' hi] at hm
  by_cases hij : i = j
  · subst hij
    rw [hj] at hi
    cases hi
    simp only [if_true, List.mem_singleton] at hm
    exact ⟨rfl, vals_inj _ _ (by rw [fits_vars l t vals' hf', hv]) hm⟩
  · rw [if_neg hij] at hm; cases hm

/-- a line that is not read -/
theorem vnone (ctx : LoadCtx) (tpl : List RLine) (hok : ∀ l ∈ tpl, l.OK ctx) (mf : MatchFns) (env : Env) (t : Str) (ht : '\n' ∉ t)
    (h : tpl.all (fun l => (xrCaps l t).isEmpty) = true) : RichReads mf env tpl t none := by
  intro l hl vals hf
  have hm := (vcaps ctx l (hok l hl) t ht (capsOf vals)).1 ⟨vals, hf, rfl⟩
  have := List.all_eq_true.1 h l hl
  rw [List.isEmpty_iff] at this
  rw [this] at hm
  cases hm

/-- the text -/
def xvText : Str := c!"interface xe1\ninterface ge0/1\n mtu 9000\n state down\ninterface ge2\n mtu x\n state up3"

/-- how its lines are read -/
def xvReads : Readings :=
  [none, some (0, some [(.s c!"name", .str c!"ge0/1")]), some (1, some [(.s c!"mtu", .int 9000)]), some (2, none),
   some (0, some [(.s c!"name", .str c!"ge2")]), none, some (2, some [(.s c!"state", .str c!"up3")])]

theorem xvReads_ok : All2 (RichReads (MatchFn.builtin W1) ⟨[], []⟩ xvTpl) (splitC '\n' xvText) xvReads := by
  have hs : splitC '\n' xvText = [c!"interface xe1", c!"interface ge0/1", c!" mtu 9000", c!" state down", c!"interface ge2", c!" mtu x", c!" state up3"] := by
    decide +kernel
  rw [hs]
  refine .cons ?_ (.cons ?_ (.cons ?_ (.cons ?_ (.cons ?_ (.cons ?_ (.cons ?_ .nil))))))
  · exact vnone varCtx xvTpl xv_ok _ _ _ (by decide) (by decide +kernel)
  · exact vread varCtx xvTpl xv_ok _ _ _ (by decide) 0 xv0 rfl [(xvName, c!"ge0/1")] rfl _ (.go (.done _) .nil) (by decide +kernel)
  · exact vread varCtx xvTpl xv_ok _ _ _ (by decide) 1 xv1 rfl [(xvMtu, c!"9000")] rfl _
      (.go (.go (f := fn c!"to_int" []) (fl := .nothing) (w := .int 9000) rfl (Or.inl rfl) (.done _)) .nil) (by decide +kernel)
  · exact vread varCtx xvTpl xv_ok _ _ _ (by decide) 2 xv2 rfl [(xvState, c!"down")] rfl _
      (.no (.no (f := fn c!"contains" [.str c!"up"]) (w := .str c!"down") rfl)) (by decide +kernel)
  · exact vread varCtx xvTpl xv_ok _ _ _ (by decide) 0 xv0 rfl [(xvName, c!"ge2")] rfl _ (.go (.done _) .nil) (by decide +kernel)
  · exact vnone varCtx xvTpl xv_ok _ _ _ (by decide) (by decide +kernel)
  · exact vread varCtx xvTpl xv_ok _ _ _ (by decide) 2 xv2 rfl [(xvState, c!"up3")] rfl _
      (.go (.go (f := fn c!"contains" [.str c!"up"]) (fl := .yes) (w := .str c!"up3") rfl (Or.inr rfl) (.done _)) .nil) (by decide +kernel)

theorem xv_ends : EndsPlain xvTpl := by
  intro j l hj hk v hv
  have hlt := (List.getElem?_eq_some_iff.1 hj).1
  match j, hj, hlt with
  | 0, hj, _ => cases hj; contradiction
  | 1, hj, _ => cases hj; contradiction
  | 2, hj, _ => cases hj; contradiction
  | n + 3, _, h => exact absurd h (by simp [xvTpl])

end Ex

/-- the hypotheses of C151 are met by a template with template variables, an expression and chains -/
example : GroupName c!"interfaces" ∧ (∀ l ∈ Ex.xvTpl, l.OK Ex.varCtx) ∧ EndsPlain Ex.xvTpl ∧ DefaultsPlain ⟨[], []⟩ Ex.xvTpl ∧
    RichClear (MatchFn.builtin W1) ⟨[], []⟩ Ex.xvTpl Ex.xvText :=
  ⟨⟨by decide, by decide, by decide, by decide⟩, Ex.xv_ok, Ex.xv_ends, fun _ _ _ _ => ⟨by simp [Dict.keys], by simp [Dict.keys]⟩,
    fun t ht => Ex.all2_mem_left Ex.xvReads_ok t ht⟩

/-- What the example means: the name of the first interface does not match the expression of the template variable, the chain makes a number of the
digits, the argument of `contains` is the value of the template variable. -/
theorem C151_variables_example : RichMeans (MatchFn.builtin W1) ⟨[], []⟩ c!"interfaces" false Ex.xvTpl Ex.xvText
    (.dict [(.s c!"interfaces", .list [
        .dict [(.s c!"name", .str c!"ge0/1"), (.s c!"mtu", .int 9000)],
        .dict [(.s c!"name", .str c!"ge2"), (.s c!"state", .str c!"up3"), (.s c!"mtu", .int 1500)]])]) := by
  refine ⟨Ex.xvReads, _, [[(.s c!"name", .str c!"ge0/1"), (.s c!"mtu", .int 9000)],
    [(.s c!"name", .str c!"ge2"), (.s c!"state", .str c!"up3"), (.s c!"mtu", .int 1500)]], Ex.xvReads_ok, Or.inr ⟨?_, rfl⟩, ?_, rfl⟩
  · rintro ⟨h, _⟩
    exact h (some (0, some [(.s c!"name", .str c!"ge2")])) (by decide +kernel) (by show kindAt _ 0 = _; decide +kernel)
  · have e : segments ((Ex.xvReads.filterMap id).filterMap (richEv Ex.xvTpl)) =
        [([(.s c!"name", .str c!"ge0/1")], [[(.s c!"mtu", .int 9000)]]), ([(.s c!"name", .str c!"ge2")], [[(.s c!"state", .str c!"up3")]])] := by
      decide +kernel
    have ed : richDefaults Ex.xvTpl = [(.s c!"mtu", .int 1500)] := by decide +kernel
    rw [e, ed]
    refine .cons ?_ (.cons ?_ .nil)
    · intro k
      simp only [Dict.get?, List.cons_append, List.nil_append, List.findSome?_cons, List.findSome?_nil]
      by_cases h1 : Key.s c!"name" = k
      · simp [h1]
      · by_cases h3 : Key.s c!"mtu" = k <;> simp [h1, h3]
    · intro k
      simp only [Dict.get?, List.cons_append, List.nil_append, List.findSome?_cons, List.findSome?_nil]
      by_cases h1 : Key.s c!"name" = k
      · simp [h1]
      · by_cases h2 : Key.s c!"state" = k
        · simp [h1, h2]
        · by_cases h3 : Key.s c!"mtu" = k <;> simp [h1, h2, h3]

/-- the XML element of the example is the template as it is written -/
example : (richXml c!"interfaces*" Ex.xvTpl none).text = some c!"\ninterface {{ name | re(\"IFNAME\") }}\n mtu {{ mtu | chain(\"number\") | default(1500) }}\n state {{ state | contains(\"good\") | chain(\"nothing\") }}\n" := by
  decide +kernel

end Props
