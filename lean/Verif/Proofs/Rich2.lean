import Verif.Proofs.Rich1
/-! # Lemmas: loading of lines with patterns, functions, defaults and marks -/

namespace TTP
open Py Spec Re

/-! ## Options of a variable -/

/-- what an option does to the variable -/
def optAttr (f : FnCall) : Option Attr :=
  if f.name = c!"default" then none
  else if f.name = c!"_start_" then some .start
  else if f.name = c!"_end_" then some .end_
  else if f.name ∈ c!"re" :: patternNames then (optRe f).map .pattern
  else some (.fn f)

/-- what an option does to the defaults -/
def optDefault (n : Str) (d : Dict Key Val) (f : FnCall) : Dict Key Val :=
  if f.name = c!"default" then
    match f.args.head? with
    | some x => Dict.set d (.s n) x
    | none => d
  else d

theorem getPattern_none (n : Str) (h : n ∉ patternNames) (h2 : n ≠ c!"_line_") : getPattern n = none := by
  simp only [patternNames, List.mem_cons, List.not_mem_nil, or_false, not_or] at h
  obtain ⟨h1, h3, h4, h5, h6, h7, h8, h9, h10, h11⟩ := h
  rw [getPattern, Dict.get?_eq_none_iff]
  simp [Dict.keys, *]

theorem pattern_isExpr (ctx : LoadCtx) (hp : ctx.patterns = getPattern) (f : FnCall) (h : f.name ∈ c!"re" :: patternNames) : IsExpr ctx f := by
  rcases List.mem_cons.1 h with h | h
  · exact Or.inl h
  · obtain ⟨⟨p, hp1, _⟩, _⟩ := pattern_lang f.name h
    refine Or.inr ⟨?_, p, by rw [hp, hp1]⟩
    revert h
    simp only [patternNames, List.mem_cons, List.not_mem_nil, or_false]
    rintro (h | h | h | h | h | h | h | h | h | h) <;> rw [h] <;> decide

theorem name_re {n : Str} (h : n = c!"re") : n ∉ patternNames ∧ n ≠ c!"default" ∧ n ≠ c!"_start_" ∧ n ≠ c!"_end_" ∧ n ∉ argFunctions ∧ n ∈ reserved := by
  subst h; decide

theorem name_pattern {n : Str} (h : n ∈ patternNames) : n ≠ c!"re" ∧ n ≠ c!"default" ∧ n ≠ c!"_start_" ∧ n ≠ c!"_end_" ∧ n ∉ argFunctions := by
  revert h
  simp only [patternNames, List.mem_cons, List.not_mem_nil, or_false]
  rintro (rfl | rfl | rfl | rfl | rfl | rfl | rfl | rfl | rfl | rfl) <;> decide

theorem name_arg {n : Str} (h : n ∈ argFunctions) : n ≠ c!"re" ∧ n ≠ c!"default" ∧ n ≠ c!"_start_" ∧ n ≠ c!"_end_" ∧ n ∉ patternNames := by
  revert h
  simp only [argFunctions, List.mem_cons, List.not_mem_nil, or_false]
  rintro (rfl | rfl | rfl | rfl | rfl | rfl | rfl | rfl | rfl | rfl | rfl) <;> decide

theorem extract_plainly (ctx : LoadCtx) (hp : ctx.patterns = getPattern) (hre : ctx.re = ReText.compile) (orig line : Str)
    (ho : orig ∉ skipDefaults) (k : Nat) (f g : FnCall) (hfg : Plainly ctx f g) (hg : OptOK g) (st : VarSt) :
    extract ctx orig line (k + 1) f st =
      .ok ⟨st.attrs ++ (optAttr g).toList, optDefault orig st.defaults g, st.skip⟩ := by
  cases hfg with
  | self hn hpn =>
    obtain ⟨name, args, kwargs⟩ := f
    obtain ⟨attrs, defaults, skip⟩ := st
    simp only at hn hpn
    simp only [List.mem_cons, not_or] at hn
    rcases hg with ⟨h1, h2⟩ | ⟨h1, a, h2⟩ | h1 | h1 | h1 | ⟨h1, h2⟩ | ⟨h1, _⟩
    · exact absurd h1 hpn
    · simp only at h1 h2
      subst h1 h2
      rw [extract]
      simp [ho, pure_ok, optAttr, optDefault]
    · simp only at h1
      subst h1
      rw [extract]
      simp [pure_ok, optAttr, optDefault]
    · simp only at h1
      subst h1
      rw [extract]
      simp [pure_ok, optAttr, optDefault]
    · exact absurd h1 hn.2.2
    · simp only at h1 h2
      have hn : ∀ w ∈ reserved, name ≠ w := by rintro w hw rfl; exact h1 hw
      have hpn : (ctx.patterns name).isSome = false := by rw [hp, getPattern_none name h2 (hn _ (by decide))]; rfl
      have hak : name ∉ argKeywords := by
        intro hm
        exact hn name (by revert hm; simp only [argKeywords, reserved, List.mem_cons, List.not_mem_nil, or_false]; grind) rfl
      have n1 := hn c!"ignore" (by decide)
      have n2 := hn c!"_start_" (by decide)
      have n3 := hn c!"_headers_" (by decide)
      have n4 := hn c!"_end_" (by decide)
      have n5 := hn c!"_line_" (by decide)
      have n6 := hn c!"_exact_" (by decide)
      have n7 := hn c!"_exact_space_" (by decide)
      have n8 := hn c!"columns" (by decide)
      have n9 := hn c!"chain" (by decide)
      have n10 := hn c!"set" (by decide)
      have n11 := hn c!"default" (by decide)
      have n12 := hn c!"joinmatches" (by decide)
      have n13 := hn c!"re" (by decide)
      have h2' : name ∉ c!"re" :: patternNames := by simp [n13, h2]
      rw [extract]
      simp only [n1, n2, n3, n4, n5, n6, n7, n8, n9, n10, n11, n12, n13, hak, h2', hpn, decide_false, Bool.or_self, Bool.false_eq_true, if_false,
        if_true, ok_bind, pure_ok, optAttr, optDefault, Option.toList_some]
    · exact absurd h1 hn.1
  | arg hn ha =>
    obtain ⟨h0, h1, h2, h3, h4⟩ := name_arg hn
    rw [extract_arg ctx orig line k f hn st, (argsFromVars_taken ctx.vars f.args).1 ha, ok_bind]
    have h5 : f.name ∉ c!"re" :: patternNames := by simp [h0, h4]
    simp only [pure_ok, optAttr, optDefault, h1, h2, h3, h5, if_false, Option.toList_some]
  | @pattern s hn ha hs hv =>
    obtain ⟨⟨p, hp1, hp2⟩, _⟩ := pattern_lang s hs
    obtain ⟨h0, h1, h2, h3, _⟩ := name_pattern hs
    have hf : ExprFound ctx.vars ctx.patterns s p := Or.inr ⟨Or.inl ((Dict.get?_eq_none_iff _ _).2 hv), Or.inl (by rw [hp, hp1])⟩
    rw [extract_expr ctx orig line k f (pattern_isExpr ctx hp f hn) st, extractRe_found ctx f s p ha hf, hre, hp2]
    have h5 : s ∈ c!"re" :: patternNames := by simp [hs]
    simp only [ok_bind, pure_ok, optAttr, optDefault, h1, h2, h3, h5, if_false, if_true, optRe, hs, Option.map_some, Option.toList_some]
  | @expr s t hn ha hf =>
    have ht : LineExpr t := by
      have hx := name_re (n := c!"re") rfl
      rcases hg with ⟨h1, _⟩ | ⟨h1, _⟩ | h1 | h1 | h1 | ⟨h1, _⟩ | ⟨_, t', h1, h2⟩
      · exact absurd h1 hx.1
      · exact absurd h1 hx.2.1
      · exact absurd h1 hx.2.2.1
      · exact absurd h1 hx.2.2.2.1
      · exact absurd h1 hx.2.2.2.2.1
      · exact absurd hx.2.2.2.2.2 h1
      · cases h1
        exact h2
    rw [extract_expr ctx orig line k f (pattern_isExpr ctx hp f hn) st, extractRe_found ctx f s t ha hf, hre, (expr_lang t ht).1]
    rfl

theorem plainly_chain (ctx : LoadCtx) (f g : FnCall) (h : Plainly ctx f g) : f.name ≠ c!"chain" := by
  cases h with
  | self hn _ => simp only [List.mem_cons, not_or] at hn; exact hn.2.1
  | arg hn _ => intro e; rw [e] at hn; revert hn; decide
  | pattern hn _ _ _ => intro e; rw [e] at hn; revert hn; decide
  | expr hn _ _ => intro e; rw [e] at hn; revert hn; decide

theorem eachAttr_plainly (ctx : LoadCtx) (hp : ctx.patterns = getPattern) (hre : ctx.re = ReText.compile) (orig line : Str)
    (ho : orig ∉ skipDefaults) (k : Nat) (fs gs : List FnCall) (hfg : All2 (Plainly ctx) fs gs) (hg : ∀ g ∈ gs, OptOK g) (st : VarSt) :
    eachAttr (extract ctx orig line (k + 1)) fs st =
      .ok ⟨st.attrs ++ gs.filterMap optAttr, gs.foldl (optDefault orig) st.defaults, st.skip⟩ := by
  induction hfg generalizing st with
  | nil => simp [eachAttr, pure_ok]
  | @cons f g fs gs h _ ih =>
    simp only [eachAttr]
    rw [extract_plainly ctx hp hre orig line ho k f g h (hg g (by simp)), ok_bind, ih (fun x hx => hg x (by simp [hx]))]
    cases h : optAttr g <;> simp [h]

theorem extract_stands (ctx : LoadCtx) (hp : ctx.patterns = getPattern) (hre : ctx.re = ReText.compile) (orig line : Str)
    (ho : orig ∉ skipDefaults) (k : Nat) (f : FnCall) (gs : List FnCall) (hfg : StandsFor ctx f gs) (hg : ∀ g ∈ gs, OptOK g) (st : VarSt) :
    extract ctx orig line (k + 2) f st =
      .ok ⟨st.attrs ++ gs.filterMap optAttr, gs.foldl (optDefault orig) st.defaults, st.skip⟩ := by
  cases hfg with
  | @one _ g h =>
    rw [extract_plainly ctx hp hre orig line ho (k + 1) f g h (hg g (by simp))]
    cases h : optAttr g <;> simp [h]
  | @chain s as kw v fs _ hv hc h =>
    have hn : ∀ f ∈ fs, f.name ≠ c!"chain" := by
      clear hc hg
      induction h with
      | nil => simp
      | cons h1 _ ih =>
        intro f hf
        rcases List.mem_cons.1 hf with rfl | hf
        · exact plainly_chain ctx _ _ h1
        · exact ih f hf
    rw [extract_chain ctx orig line k s as kw v fs hv hc hn, eachAttr_plainly ctx hp hre orig line ho (k + 1) fs gs h hg]
  | @noChain s as kw hv =>
    rw [extract]
    show (match Dict.get? ctx.vars s with
      | none => pure st
      | some .none => pure st
      | some v => do
        let as ← chainAttrs ctx v
        eachAttr (extract ctx orig line (k + 1)) as st) = _
    rw [(Dict.get?_eq_none_iff _ _).2 hv]
    simp [pure_ok]

theorem extractAll_stands (ctx : LoadCtx) (hp : ctx.patterns = getPattern) (hre : ctx.re = ReText.compile) (orig line : Str)
    (ho : orig ∉ skipDefaults) (k : Nat) (fs : List FnCall) (gss : List (List FnCall)) (hfg : All2 (StandsFor ctx) fs gss)
    (hg : ∀ g ∈ gss.flatten, OptOK g) (st : VarSt) :
    extractAll ctx orig line (k + 2) fs st =
      .ok ⟨st.attrs ++ gss.flatten.filterMap optAttr, gss.flatten.foldl (optDefault orig) st.defaults, st.skip⟩ := by
  unfold extractAll
  induction hfg generalizing st with
  | nil => simp [eachAttr, pure_ok]
  | @cons f gs fs gss h _ ih =>
    simp only [eachAttr]
    rw [extract_stands ctx hp hre orig line ho k f gs h (fun x hx => hg x (by simp [hx])), ok_bind,
      ih (fun x hx => hg x (by rw [List.flatten_cons]; exact List.mem_append_right _ hx))]
    simp

/-- the variable as it is loaded -/
def richDef (v : RVar) : VarDef := ⟨v.name, none, v.opts.filterMap optAttr⟩

/-- marks of options -/
def optMark (f : FnCall) : Option Bool :=
  if f.name = c!"_start_" then some true else if f.name = c!"_end_" then some false else none

theorem addAttrs (n : Str) (hn : n ≠ c!"_start_") (opts : List FnCall) (a : Action) (P : List Re) (F : List FnCall) :
    (opts.filterMap optAttr).foldl addAttr ⟨n, n, a, false, P, F, false, false, none, false⟩ =
      ⟨n, n, ((opts.filterMap optMark).getLast?).elim a (fun b => markAction (some b)), false,
        P ++ opts.filterMap optRe,
        F ++ opts.filter (fun f => decide (f.name ∉ c!"re" :: c!"default" :: c!"_start_" :: c!"_end_" :: patternNames)), false, false, none, false⟩ := by
  induction opts generalizing a P F with
  | nil => simp
  | cons f fs ih =>
    by_cases h1 : f.name = c!"default"
    · have p1 : optRe f = none := by unfold optRe; rw [h1]; rfl
      have p4 : (decide (f.name ∉ c!"re" :: c!"default" :: c!"_start_" :: c!"_end_" :: patternNames)) = false := by rw [h1]; decide
      have p2 : optMark f = none := by simp [optMark, h1]
      have p3 : optAttr f = none := by simp [optAttr, h1]
      simp only [List.filterMap_cons, p1, p3, p2, ih]
      simp only [List.filter_cons, p4, Bool.false_eq_true, if_false]
    by_cases h2 : f.name = c!"_start_"
    · have p1 : optRe f = none := by unfold optRe; rw [h2]; rfl
      have p4 : (decide (f.name ∉ c!"re" :: c!"default" :: c!"_start_" :: c!"_end_" :: patternNames)) = false := by rw [h2]; decide
      have p2 : optMark f = some true := by simp [optMark, h2]
      have p3 : optAttr f = some .start := by simp [optAttr, h2]
      simp only [List.filterMap_cons, p1, p3, p2, List.foldl_cons, addAttr, hn, if_false, ih]
      simp only [List.filter_cons, p4, Bool.false_eq_true, if_false, List.getLast?_cons]
      cases hl : (fs.filterMap optMark).getLast? <;> rfl
    by_cases h3 : f.name = c!"_end_"
    · have p1 : optRe f = none := by unfold optRe; rw [h3]; rfl
      have p4 : (decide (f.name ∉ c!"re" :: c!"default" :: c!"_start_" :: c!"_end_" :: patternNames)) = false := by rw [h3]; decide
      have p2 : optMark f = some false := by simp [optMark, h3]
      have p3 : optAttr f = some .end_ := by simp [optAttr, h3]
      simp only [List.filterMap_cons, p1, p3, p2, List.foldl_cons, addAttr, hn, if_false, ih]
      simp only [List.filter_cons, p4, Bool.false_eq_true, if_false, List.getLast?_cons]
      cases hl : (fs.filterMap optMark).getLast? <;> rfl
    have p2 : optMark f = none := by simp [optMark, h2, h3]
    by_cases h4 : f.name ∈ c!"re" :: patternNames
    · have p3 : optAttr f = (optRe f).map .pattern := by simp only [optAttr, h1, h2, h3, h4, if_true, if_false]
      have p4 : (decide (f.name ∉ c!"re" :: c!"default" :: c!"_start_" :: c!"_end_" :: patternNames)) = false := by
        simp only [List.mem_cons, decide_eq_false_iff_not, Classical.not_not] at h4 ⊢
        rcases h4 with h4 | h4
        · exact Or.inl h4
        · exact Or.inr (Or.inr (Or.inr (Or.inr h4)))
      simp only [List.filter_cons, p4, Bool.false_eq_true, if_false]
      cases hr : optRe f with
      | none => simp only [List.filterMap_cons, p3, hr, Option.map_none, p2, ih]
      | some r => simp only [List.filterMap_cons, p3, hr, Option.map_some, p2, List.foldl_cons, addAttr, ih, List.append_assoc, List.cons_append, List.nil_append]
    · have p3 : optAttr f = some (.fn f) := by simp only [optAttr, h1, h2, h3, h4, if_false]
      have p1 : optRe f = none := by
        simp only [List.mem_cons, not_or] at h4
        simp only [optRe, h4.1, h4.2, if_false]
      have p4 : (decide (f.name ∉ c!"re" :: c!"default" :: c!"_start_" :: c!"_end_" :: patternNames)) = true := by
        simp only [List.mem_cons, not_or] at h4
        simp [h1, h2, h3, h4.1, h4.2]
      simp only [List.filterMap_cons, p1, p3, p2, List.foldl_cons, addAttr, ih]
      simp only [List.filter_cons, p4, if_true, List.append_assoc, List.cons_append, List.nil_append]

theorem not_reserved (n : Str) (h : n ∉ reserved) : n ∉ keywords ∧ n ∉ skipDefaults ∧ n ≠ c!"ignore" ∧ n ≠ c!"_start_" ∧ n ≠ c!"_end_" ∧
    n ≠ c!"_line_" ∧ n ≠ c!"_headers_" := by
  have hw : ∀ w ∈ reserved, n ≠ w := by rintro w hw rfl; exact h hw
  refine ⟨h, ?_, hw _ (by decide), hw _ (by decide), hw _ (by decide), hw _ (by decide), hw _ (by decide)⟩
  simp only [skipDefaults, List.mem_cons, List.not_mem_nil, or_false, not_or]
  exact ⟨hw _ (by decide), hw _ (by decide), hw _ (by decide), hw _ (by decide)⟩

theorem varInfo_rich (v : RVar) (ho : v.OK) : varInfo (richDef v) = richInfo v := by
  obtain ⟨⟨_, h2, h3, h4⟩, _⟩ := ho
  obtain ⟨_, _, r1, r2, r3, r4, _⟩ := not_reserved _ h4
  simp only [varInfo, richDef, sanitize_word v.name h2 h3, nameAttr, r1, r2, r3, r4, if_false, addAttrs v.name r2, richInfo, List.nil_append,
    exprsOf, RVar.checks]
  congr 1
  show _ = markAction (v.opts.filterMap optMark).getLast?
  cases (v.opts.filterMap optMark).getLast? <;> rfl

/-- default values of a variable -/
def setDefaults (v : RVar) (d : Dict Key Val) : Dict Key Val := v.opts.foldl (optDefault v.name) d

theorem setDefaults_eq (v : RVar) (d : Dict Key Val) :
    setDefaults v d = (v.dflts.map (fun x => (v.name, x))).foldl (fun d nx => Dict.set d (.s nx.1) nx.2) d := by
  unfold setDefaults RVar.dflts
  generalize v.opts = fs
  induction fs generalizing d with
  | nil => rfl
  | cons f fs ih =>
    rw [List.foldl_cons, ih]
    unfold optDefault
    by_cases h : f.name = c!"default"
    · cases ha : f.args.head? <;> simp [h, ha]
    · simp [h]

theorem meant_attrs (ctx : LoadCtx) (v : RVar) (ho : v.OK) (b : Str) (hw : v.Meant ctx b) :
    ∃ fs, getAttributes ctx b = .ok (⟨v.name, [], []⟩ :: fs) := by
  obtain ⟨fs, _, h, _⟩ := hw
  exact ⟨fs, getAttributes_written ctx ⟨v.name, fs⟩ ho.name b h⟩

/-- `ignore` as it is loaded -/
def ignDef (e : Option Str) : VarDef := ⟨c!"ignore", e.map exprRe, []⟩

theorem varInfo_ign (e : Option Str) : varInfo (ignDef e) = ignInfo e := by
  unfold varInfo ignDef ignInfo
  rw [show sanitize c!"ignore" = c!"ignore" from by decide]
  rfl

theorem ign_attrs (ctx : LoadCtx) (e : Option Str) (b : Str) (hw : IgnMeant ctx e b) :
    ∃ as kw, getAttributes ctx b = .ok [⟨c!"ignore", as, kw⟩] ∧
      ((as = [] ∧ e = none) ∨ ∃ s t, as = [.str s] ∧ ExprFound ctx.vars ctx.patterns s t ∧ e = some t) := by
  obtain ⟨i, x, y, as, kw, rfl, hxy, hi, hm, h⟩ := hw
  refine ⟨as, kw, getAttributes_pipe ctx _ _ (by simp) ?_ (.cons hm .nil), h⟩
  intro j hj
  rw [List.mem_singleton] at hj
  subst hj
  exact ⟨fun c hc => hxy c (by simp [hc]), hi, fun c hc => hxy c (by simp [hc])⟩

theorem loadVar_ign (ctx : LoadCtx) (hre : ctx.re = ReText.compile) (e : Option Str) (he : ∀ t, e = some t → LineExpr t)
    (line b : Str) (hw : IgnMeant ctx e b) (d : Dict Key Val) :
    loadVar ctx (.str c!"_Not_Given_") line b d = .ok (ignDef e, d, false) := by
  obtain ⟨as, kw, hattrs, h⟩ := ign_attrs ctx e b hw
  have hg : groupDefault (.str c!"_Not_Given_") c!"ignore" d = d := by simp [groupDefault]
  have hs : sanitize c!"ignore" = c!"ignore" := by decide
  have hk : c!"ignore" ∈ skipDefaults := by decide
  have hign : ignoreArg ctx ⟨c!"ignore", as, kw⟩ = .ok (e.map exprRe) := by
    rcases h with ⟨rfl, rfl⟩ | ⟨s, t, rfl, hf, rfl⟩
    · rfl
    · have := extractRe_found ctx ⟨c!"ignore", [.str s], kw⟩ s t (Or.inr ⟨[], rfl⟩) hf
      rw [hre, (expr_lang t (he t rfl)).1] at this
      unfold ignoreArg
      show (findRe ctx (.str s) >>= fun r => pure (some r)) = _
      rw [show findRe ctx (.str s) = .ok (exprRe t) from this]
      rfl
  unfold loadVar
  simp only [hattrs, ok_bind, hs, hk, if_true, hg, List.nil_append, hign, pure_ok]
  rfl

theorem loadVar_rich (ctx : LoadCtx) (hp : ctx.patterns = getPattern) (hre : ctx.re = ReText.compile) (v : RVar) (ho : v.OK)
    (line b : Str) (hw : v.Meant ctx b) (d : Dict Key Val) :
    loadVar ctx (.str c!"_Not_Given_") line b d = .ok (richDef v, setDefaults v d, false) := by
  obtain ⟨fs, gss, hwr, hst, hopts⟩ := hw
  have hattrs := getAttributes_written ctx ⟨v.name, fs⟩ ho.name b hwr
  obtain ⟨⟨h1, h2, h3, h4⟩, h5⟩ := ho
  obtain ⟨r0, rs, r1, _⟩ := not_reserved _ h4
  have hg : groupDefault (.str c!"_Not_Given_") v.name d = d := by simp [groupDefault]
  unfold loadVar
  simp only [hattrs, ok_bind, sanitize_word v.name h2 h3, rs, r0, if_false, hg, List.nil_append, r1, pure_ok]
  rw [show chainDepth = 998 + 2 from rfl, extractAll_stands ctx hp hre v.name line rs 998 fs gss hst (by rw [← hopts]; exact h5), ← hopts]
  simp only [ok_bind, List.nil_append]
  rfl

end TTP
