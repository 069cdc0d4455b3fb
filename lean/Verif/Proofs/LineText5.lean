import Verif.Proofs.LineText4
import Verif.Proofs.RegexNames
/-!
# Loading of a line and the text of its regular expression
-/

namespace TTP
open Py Py.Re Py.ReText

/-- the patterns among the attributes -/
def patsOf : List Attr → List Re
  | [] => []
  | .pattern r :: as => r :: patsOf as
  | .line r :: as => r :: patsOf as
  | _ :: as => patsOf as

/-- is there `set` -/
def setIn : List Attr → Bool
  | [] => false
  | .set _ :: _ => true
  | _ :: as => setIn as

theorem patsOf_append (a b : List Attr) : patsOf (a ++ b) = patsOf a ++ patsOf b := by
  induction a with
  | nil => rfl
  | cons x a ih => cases x <;> simp [patsOf, ih]

theorem setIn_append (a b : List Attr) : setIn (a ++ b) = (setIn a || setIn b) := by
  induction a with
  | nil => rfl
  | cons x a ih => cases x <;> simp [setIn, ih]

theorem fold_attrs (as : List Attr) (v : VarInfo) :
    (as.foldl addAttr v).pats = v.pats ++ patsOf as ∧ (as.foldl addAttr v).cut = (v.cut || setIn as) ∧
      (as.foldl addAttr v).name = v.name ∧ (as.foldl addAttr v).ignore = v.ignore ∧ (as.foldl addAttr v).ignArg = v.ignArg := by
  induction as generalizing v with
  | nil => simp [patsOf, setIn]
  | cons a as ih =>
    rw [List.foldl_cons]
    obtain ⟨h1, h2, h3, h4, h5⟩ := ih (addAttr v a)
    rw [h1, h2, h3, h4, h5]
    cases a <;> simp [addAttr, patsOf, setIn]

theorem ReadsAll.append {ps : List Str} {rs : List Re} (h : ReadsAll ps rs) {p : Str} {r : Re} (hp : parseAll p = some r) :
    ReadsAll (ps ++ [p]) (rs ++ [r]) := by
  induction ps generalizing rs with
  | nil => cases rs with
    | nil => exact ⟨hp, trivial⟩
    | cons _ _ => cases h
  | cons q ps ih => cases rs with
    | nil => cases h
    | cons s rs => exact ⟨h.1, ih h.2⟩

/-- what both forms know about a variable; the text has the patterns `pre` before -/
def StRel (pre : List Str) (ts : TextSt) (st : VarSt) : Prop :=
  (∃ qs, ts.pats = pre ++ qs ∧ ReadsAll qs (patsOf st.attrs)) ∧ ts.set = setIn st.attrs

theorem StRel.other {pre : List Str} {ts : TextSt} {st : VarSt} (h : StRel pre ts st) (a : Attr) (h1 : patsOf [a] = []) (h2 : setIn [a] = false) :
    StRel pre ts { st with attrs := st.attrs ++ [a] } := by
  refine ⟨?_, ?_⟩
  · obtain ⟨qs, e, hq⟩ := h.1
    refine ⟨qs, e, ?_⟩
    show ReadsAll qs (patsOf (st.attrs ++ [a]))
    rw [patsOf_append, h1, List.append_nil]; exact hq
  · show ts.set = setIn (st.attrs ++ [a])
    rw [setIn_append, h2, Bool.or_false]; exact h.2

theorem StRel.pat {pre : List Str} {ts : TextSt} {st : VarSt} (h : StRel pre ts st) (a : Attr) (t : Str) (r : Re) (hp : parseAll t = some r)
    (h1 : patsOf [a] = [r]) (h2 : setIn [a] = false) :
    StRel pre { ts with pats := ts.pats ++ [t] } { st with attrs := st.attrs ++ [a] } := by
  refine ⟨?_, ?_⟩
  · obtain ⟨qs, e, hq⟩ := h.1
    refine ⟨qs ++ [t], by show ts.pats ++ [t] = _; rw [e, List.append_assoc], ?_⟩
    show ReadsAll (qs ++ [t]) (patsOf (st.attrs ++ [a]))
    rw [patsOf_append, h1]; exact hq.append hp
  · show ts.set = setIn (st.attrs ++ [a])
    rw [setIn_append, h2, Bool.or_false]; exact h.2

theorem findRe_ok (ctx : LoadCtx) (hre : ctx.re = parseAll) (v : Val) (r : Re) (h : findRe ctx v = .ok r) :
    ∃ t, findReText ctx v = .ok t ∧ parseAll t = some r := by
  unfold findRe at h
  obtain ⟨t, h1, h2⟩ := (bind_ok_iff _ _ _).1 h
  refine ⟨t, h1, ?_⟩
  rw [hre] at h2
  cases hp : parseAll t with
  | none => rw [hp] at h2; cases h2
  | some r' => rw [hp] at h2; cases h2; rfl

theorem each_sim (pre : List Str) (k : FnCall → VarSt → PyM VarSt) (kt : FnCall → TextSt → PyM TextSt)
    (hk : ∀ f ts st st', StRel pre ts st → k f st = .ok st' → ∃ ts', kt f ts = .ok ts' ∧ StRel pre ts' st') (fs : List FnCall) :
    ∀ ts st st', StRel pre ts st → eachAttr k fs st = .ok st' → ∃ ts', eachText kt fs ts = .ok ts' ∧ StRel pre ts' st' := by
  induction fs with
  | nil =>
    intro ts st st' h he
    cases he
    exact ⟨ts, rfl, h⟩
  | cons f fs ih =>
    intro ts st st' h he
    rw [eachAttr] at he
    obtain ⟨s1, h1, h2⟩ := (bind_ok_iff _ _ _).1 he
    obtain ⟨t1, e1, r1⟩ := hk f ts st s1 h h1
    obtain ⟨t2, e2, r2⟩ := ih t1 s1 st' r1 h2
    exact ⟨t2, by rw [eachText, e1, ok_bind]; exact e2, r2⟩

theorem extract_sim (ctx : LoadCtx) (hre : ctx.re = parseAll) (pre : List Str) (orig line : Str) (n : Nat) :
    ∀ f ts st st', StRel pre ts st → extract ctx orig line n f st = .ok st' → ∃ ts', extractText ctx line n f ts = .ok ts' ∧ StRel pre ts' st' := by
  induction n with
  | zero => intro f ts st st' _ he; cases he
  | succ n ih =>
    intro f ts st st' h he
    have same : ∀ (hp : isPatternAttr ctx f = false) (hc : f.name ≠ c!"chain") (hs : f.name ≠ c!"set"), extractText ctx line (n + 1) f ts = .ok ts := by
      intro hp hc hs
      rw [extractText, hp]
      simp only [Bool.false_eq_true, if_false, hc, hs, decide_false, Bool.false_and]
      rfl
    have notpat : f.name ∈ keywords → f.name ≠ c!"_line_" → f.name ≠ c!"re" → isPatternAttr ctx f = false := by
      intro hk h1 h2
      simp [isPatternAttr, hk, h1, h2]
    have pat : isPatternAttr ctx f = true → ∀ r, extractRe ctx f = .ok r →
        ∃ t, parseAll t = some r ∧ extractText ctx line (n + 1) f ts = .ok { ts with pats := ts.pats ++ [t] } := by
      intro hp r hr
      obtain ⟨t, h1, h2⟩ := findRe_ok ctx hre _ r hr
      refine ⟨t, h2, ?_⟩
      rw [extractText, if_pos hp, h1, ok_bind]; rfl
    have kw : ∀ w, f.name = w → w ∈ keywords → f.name ∈ keywords := fun w e hw => by rw [e]; exact hw
    rw [extract] at he
    by_cases c1 : f.name = c!"ignore"
    · rw [if_pos c1] at he
      cases he
      exact ⟨ts, same (notpat (by rw [c1]; decide) (by rw [c1]; decide) (by rw [c1]; decide)) (by rw [c1]; decide) (by rw [c1]; decide),
        h.other _ rfl rfl⟩
    rw [if_neg c1] at he
    by_cases c2 : (f.name = c!"_start_" || f.name = c!"_headers_") = true
    · rw [if_pos c2] at he
      cases he
      simp only [Bool.or_eq_true, decide_eq_true_eq] at c2
      refine ⟨ts, ?_, h.other _ rfl rfl⟩
      rcases c2 with e | e <;>
        exact same (notpat (by rw [e]; decide) (by rw [e]; decide) (by rw [e]; decide)) (by rw [e]; decide) (by rw [e]; decide)
    rw [if_neg c2] at he
    by_cases c3 : f.name = c!"_end_"
    · rw [if_pos c3] at he
      cases he
      exact ⟨ts, same (notpat (by rw [c3]; decide) (by rw [c3]; decide) (by rw [c3]; decide)) (by rw [c3]; decide) (by rw [c3]; decide),
        h.other _ rfl rfl⟩
    rw [if_neg c3] at he
    by_cases c4 : f.name = c!"_line_"
    · rw [if_pos c4] at he
      obtain ⟨r, hr, he⟩ := (bind_ok_iff _ _ _).1 he
      cases he
      obtain ⟨t, h1, h2⟩ := pat (by simp [isPatternAttr, c4]) r hr
      exact ⟨_, h2, h.pat _ t r h1 rfl rfl⟩
    rw [if_neg c4] at he
    by_cases c5 : (f.name = c!"_exact_" || f.name = c!"_exact_space_" || f.name = c!"columns") = true
    · rw [if_pos c5] at he
      cases he
      simp only [Bool.or_eq_true, decide_eq_true_eq] at c5
      refine ⟨ts, ?_, h⟩
      rcases c5 with (e | e) | e <;>
        exact same (notpat (by rw [e]; decide) (by rw [e]; decide) (by rw [e]; decide)) (by rw [e]; decide) (by rw [e]; decide)
    rw [if_neg c5] at he
    by_cases c6 : f.name = c!"chain"
    · rw [if_pos c6] at he
      have hnp := notpat (by rw [c6]; decide) (by rw [c6]; decide) (by rw [c6]; decide)
      rw [extractText]
      simp only [hnp, Bool.false_eq_true, if_false, c6, if_true]
      cases ha : f.args with
      | nil => rw [ha] at he; cases he
      | cons a as =>
        rw [ha] at he
        dsimp only at he ⊢
        cases a with
        | str s =>
          dsimp only at he ⊢
          cases hv : Dict.get? ctx.vars s with
          | none => rw [hv] at he; cases he; exact ⟨ts, rfl, h⟩
          | some v =>
            rw [hv] at he
            by_cases hn : v = .none
            · subst hn
              dsimp only at he ⊢
              cases he; exact ⟨ts, rfl, h⟩
            · have he' : (chainAttrs ctx v >>= fun as => eachAttr (extract ctx orig line n) as st) = .ok st' := by
                cases v <;> first | exact absurd rfl hn | exact he
              obtain ⟨as', h1, h2⟩ := (bind_ok_iff _ _ _).1 he'
              obtain ⟨t2, e2, r2⟩ := each_sim pre _ _ ih as' ts st st' h h2
              refine ⟨t2, ?_, r2⟩
              have : (chainAttrs ctx v >>= fun as => eachText (extractText ctx line n) as ts) = .ok t2 := by rw [h1, ok_bind]; exact e2
              cases v <;> first | exact absurd rfl hn | exact this
        | list _ => cases he
        | dict _ => cases he
        | _ => cases he; exact ⟨ts, rfl, h⟩
    rw [if_neg c6] at he
    by_cases c7 : f.name = c!"set"
    · rw [if_pos c7] at he
      have hnp := notpat (by rw [c7]; decide) (by rw [c7]; decide) (by rw [c7]; decide)
      rw [extractText]
      simp only [hnp, Bool.false_eq_true, if_false, c7, decide_true, Bool.true_and]
      by_cases hl : rstrip line ≠ []
      · rw [if_pos hl] at he
        cases he
        rw [if_neg (by decide), if_pos (by simpa using hl)]
        refine ⟨_, rfl, ?_, ?_⟩
        · obtain ⟨qs, e, hq⟩ := h.1
          refine ⟨qs, e, ?_⟩
          show ReadsAll qs (patsOf (st.attrs ++ [_]))
          rw [patsOf_append]
          simpa [patsOf] using hq
        · show true = setIn (st.attrs ++ [_])
          rw [setIn_append]; simp [setIn]
      · rw [if_neg hl] at he
        rw [if_neg (by decide), if_neg (by simpa using hl)]
        cases ha : f.args with
        | nil => rw [ha] at he; cases he
        | cons a as => rw [ha] at he; cases he; exact ⟨ts, rfl, h⟩
    rw [if_neg c7] at he
    by_cases c8 : f.name = c!"default"
    · rw [if_pos c8] at he
      refine ⟨ts, same (notpat (by rw [c8]; decide) (by rw [c8]; decide) (by rw [c8]; decide)) c6 c7, ?_⟩
      by_cases hs : orig ∈ skipDefaults
      · rw [if_pos hs] at he; cases he; exact h
      · rw [if_neg hs] at he
        split at he <;> cases he <;> exact h
    rw [if_neg c8] at he
    by_cases c9 : f.name = c!"joinmatches"
    · rw [if_pos c9] at he
      cases he
      exact ⟨ts, same (notpat (by rw [c9]; decide) (by rw [c9]; decide) (by rw [c9]; decide)) c6 c7, h.other _ rfl rfl⟩
    rw [if_neg c9] at he
    by_cases c10 : f.name = c!"re"
    · rw [if_pos c10] at he
      obtain ⟨r, hr, he⟩ := (bind_ok_iff _ _ _).1 he
      cases he
      obtain ⟨t, h1, h2⟩ := pat (by simp [isPatternAttr, c10]) r hr
      exact ⟨_, h2, h.pat _ t r h1 rfl rfl⟩
    rw [if_neg c10] at he
    by_cases c11 : f.name ∈ argKeywords
    · rw [if_pos c11] at he
      obtain ⟨args, ha, he⟩ := (bind_ok_iff _ _ _).1 he
      cases he
      have hk : f.name ∈ keywords := by
        have : ∀ w ∈ argKeywords, w ∈ keywords := by decide
        exact this _ c11
      exact ⟨ts, same (notpat hk c4 c10) c6 c7, h.other _ rfl rfl⟩
    rw [if_neg c11] at he
    have hk : f.name ∉ keywords := by
      simp only [Bool.or_eq_true, decide_eq_true_eq, not_or] at c2 c5
      simp only [argKeywords, List.mem_cons, List.mem_nil_iff, not_or, or_false] at c11
      simp only [keywords, List.mem_cons, List.mem_nil_iff, not_or, or_false]
      exact ⟨c1, c2.1, c3, c4, c5.1.1, c5.1.2, c2.2, c5.2, c6, c7, c8, c9, c10, c11⟩
    by_cases c12 : (ctx.patterns f.name).isSome = true
    · rw [if_pos c12] at he
      obtain ⟨r, hr, he⟩ := (bind_ok_iff _ _ _).1 he
      cases he
      obtain ⟨t, h1, h2⟩ := pat (by simp [isPatternAttr, hk, c12]) r hr
      exact ⟨_, h2, h.pat _ t r h1 rfl rfl⟩
    · rw [if_neg c12] at he
      cases he
      exact ⟨ts, same (by simp [isPatternAttr, hk, c12, c4, c10]) c6 c7, h.other _ rfl rfl⟩

/-! ## A variable -/

theorem eachText_append (k : FnCall → TextSt → PyM TextSt) (a b : List FnCall) (st : TextSt) :
    eachText k (a ++ b) st = eachText k a st >>= eachText k b := by
  induction a generalizing st with
  | nil => rfl
  | cons f a ih =>
    rw [List.cons_append, eachText, eachText]
    cases k f st with
    | error e => rfl
    | ok s => rw [ok_bind, ok_bind]; exact ih s

theorem getAttributes_named (ctx : LoadCtx) (content : Str) (f : FnCall) (fs : List FnCall) (h : getAttributes ctx content = .ok (f :: fs)) :
    f.name ≠ [] := by
  have key : ∀ (s acc : Str) n o, attrName acc s = some (n, o) → n ≠ [] := by
    intro s
    induction s with
    | nil => intro acc n o h; cases h
    | cons c s ih =>
      intro acc n o h
      rw [attrName] at h
      split at h
      · cases h
      · split at h
        · cases h; simp
        · exact ih _ _ _ h
  unfold getAttributes at h
  cases hi : ((splitC '|' content).map strip).filter (fun i => decide (i ≠ [])) with
  | nil => rw [hi] at h; cases h
  | cons i is =>
    rw [hi, attrsOf] at h
    obtain ⟨a, h1, h2⟩ := (bind_ok_iff _ _ _).1 h
    obtain ⟨as, h3, h4⟩ := (bind_ok_iff _ _ _).1 h2
    cases h4
    unfold attrOf at h1
    split at h1
    · cases h1
    · cases h1; rename_i hn; exact key _ _ _ _ hn
    · cases h1; rename_i hn; exact key _ _ _ _ hn
    · rename_i hn
      split at h1
      · cases h1; exact key _ _ _ _ hn
      · cases h1

theorem sanitize_nameOk (n : Str) (h : n ≠ []) : nameOk (sanitize n) = true := by
  obtain ⟨c, cs, e, h1, h2⟩ := sanitize_valid n h
  rw [e] at h2 ⊢
  simp only [nameOk, Bool.and_eq_true, Bool.not_eq_true', h1, true_and, List.all_eq_true]
  exact h2

/-- the variable is written as the loader expects it: `_line_` is the pattern of TTP, `ignore` has at most one argument -/
def LineOk (v : TextVar) : Prop := (v.name = c!"_line_" → v.res.head? = some c!".+") ∧ v.ign ≠ .many

theorem reads_line (qs : List Str) (rs : List Re) (h : ReadsAll qs rs) :
    ∃ xs, ReadsAll (c!".+" :: qs) xs ∧ SameAll xs (reLINE :: rs) := by
  refine ⟨.seq reLINE .eps :: rs, ⟨by decide, h⟩, ⟨run_seq_eps _, rfl⟩, SameAll.refl rs⟩

/-- what the loader takes as attributes before the others -/
def firstOf (f : FnCall) : List FnCall :=
  if sanitize f.name ∈ skipDefaults then []
  else if sanitize f.name ∈ keywords then [{ f with name := sanitize f.name }] else []

theorem loadVar_ok (ctx : LoadCtx) (dflt : Val) (line content : Str) (d d' : Dict Key Val) (vd : VarDef) (sk : Bool)
    (h : loadVar ctx dflt line content d = .ok (vd, d', sk)) :
    ∃ f attrs d0 st ign, getAttributes ctx content = .ok (f :: attrs) ∧
      eachAttr (extract ctx f.name line chainDepth) (firstOf f ++ attrs) ⟨[], d0, false⟩ = .ok st ∧
      (sanitize f.name = c!"ignore" → ignoreArg ctx f = .ok ign) ∧ (sanitize f.name ≠ c!"ignore" → ign = none) ∧
      vd = ⟨f.name, ign, st.attrs⟩ := by
  unfold loadVar at h
  obtain ⟨as, h1, h2⟩ := (bind_ok_iff _ _ _).1 h
  cases as with
  | nil => cases h2
  | cons f attrs =>
    dsimp only at h2
    obtain ⟨st, h3, h4⟩ := (bind_ok_iff _ _ _).1 h2
    by_cases hi : sanitize f.name = c!"ignore"
    · rw [if_pos hi] at h4
      obtain ⟨ign, h5, h6⟩ := (bind_ok_iff _ _ _).1 h4
      cases h6
      exact ⟨f, attrs, _, st, ign, h1, h3, fun _ => h5, fun e => absurd hi e, rfl⟩
    · rw [if_neg hi] at h4
      cases h4
      exact ⟨f, attrs, _, st, none, h1, h3, fun e => absurd e hi, fun _ => rfl, rfl⟩

theorem textVar_ok (ctx : LoadCtx) (line content : Str) (v : TextVar) (f : FnCall) (attrs : List FnCall)
    (hg : getAttributes ctx content = .ok (f :: attrs)) (h : textVar ctx line content = .ok v) :
    ∃ ts ign, eachText (extractText ctx line chainDepth)
        ((if sanitize f.name ∈ keywords then [{ f with name := sanitize f.name }] else []) ++ attrs) ⟨[], false⟩ = .ok ts ∧
      ignTextOf ctx f = .ok ign ∧ v = ⟨content, sanitize f.name, ts.pats, ign, ts.set⟩ := by
  unfold textVar at h
  rw [hg, ok_bind] at h
  dsimp only at h
  obtain ⟨ts, h1, h2⟩ := (bind_ok_iff _ _ _).1 h
  obtain ⟨ign, h3, h4⟩ := (bind_ok_iff _ _ _).1 h2
  cases h4
  exact ⟨ts, ign, h1, h3, rfl⟩

theorem ign_sim (ctx : LoadCtx) (hre : ctx.re = parseAll) (f : FnCall) (o : Option Re) (g : IgnArg) (h1 : ignoreArg ctx f = .ok o)
    (h2 : ignText ctx f = .ok g) (hm : g ≠ .many) : IgnRel g o := by
  unfold ignoreArg at h1
  unfold ignText at h2
  cases ha : f.args with
  | nil => rw [ha] at h1 h2; cases h1; cases h2; rfl
  | cons a as =>
    rw [ha] at h1 h2
    cases as with
    | nil =>
      dsimp only at h1 h2
      obtain ⟨r, h3, h4⟩ := (bind_ok_iff _ _ _).1 h1
      obtain ⟨t, h5, h6⟩ := (bind_ok_iff _ _ _).1 h2
      cases h4; cases h6
      obtain ⟨t', h7, h8⟩ := findRe_ok ctx hre _ r h3
      rw [h7] at h5; cases h5
      exact ⟨r, rfl, h8⟩
    | cons b bs => cases h2; exact absurd rfl hm

theorem first_quiet (ctx : LoadCtx) (line : Str) (f : FnCall) (n : Nat) (ts : TextSt)
    (h : f.name = c!"ignore" ∨ f.name = c!"_start_" ∨ f.name = c!"_end_") : extractText ctx line (n + 1) f ts = .ok ts := by
  have : isPatternAttr ctx f = false ∧ f.name ≠ c!"chain" ∧ f.name ≠ c!"set" := by
    rcases h with e | e | e <;> refine ⟨?_, by rw [e]; decide, by rw [e]; decide⟩ <;>
      simp only [isPatternAttr, e] <;> simp [keywords]
  rw [extractText, this.1]
  simp only [Bool.false_eq_true, if_false, this.2.1, this.2.2, decide_false, Bool.false_and]
  rfl

/-- both forms of a variable -/
theorem loadVar_sim (ctx : LoadCtx) (hre : ctx.re = parseAll) (dflt : Val) (line content : Str) (d d' : Dict Key Val) (vd : VarDef) (sk : Bool)
    (v : TextVar) (h : loadVar ctx dflt line content d = .ok (vd, d', sk)) (hv : textVar ctx line content = .ok v) :
    nameOk v.name = true ∧ (LineOk v → VarRel v (varInfo vd)) := by
  obtain ⟨f, attrs, d0, st, ign, h1, h3, h5, h5', rfl⟩ := loadVar_ok ctx dflt line content d d' vd sk h
  obtain ⟨ts, g, k1, k2, rfl⟩ := textVar_ok ctx line content v f attrs h1 hv
  have hname := getAttributes_named ctx content f attrs h1
  refine ⟨sanitize_nameOk f.name hname, fun hok => ?_⟩
  obtain ⟨f1, f2, f3, f4, f5⟩ := fold_attrs st.attrs (nameAttr ⟨f.name, sanitize f.name, .add, false, [], [], false, false, ign, false⟩)
  have sim : ∀ pre fs ts0 ts', StRel pre ts0 ⟨[], d0, false⟩ → eachAttr (extract ctx f.name line chainDepth) fs ⟨[], d0, false⟩ = .ok st →
      eachText (extractText ctx line chainDepth) fs ts0 = .ok ts' → StRel pre ts' st := by
    intro pre fs ts0 ts' hr he ht
    obtain ⟨t, e, r⟩ := each_sim pre _ _ (extract_sim ctx hre pre f.name line chainDepth) fs ts0 _ st hr he
    rw [e] at ht; cases ht; exact r
  have start : StRel [] ⟨[], false⟩ ⟨[], d0, false⟩ := ⟨⟨[], rfl, trivial⟩, rfl⟩
  have hcd : chainDepth = 999 + 1 := rfl
  have hign : sanitize f.name = c!"ignore" → IgnRel g ign := by
    intro hi
    unfold ignTextOf at k2
    rw [if_pos hi] at k2
    exact ign_sim ctx hre f ign g (h5 hi) k2 hok.2
  by_cases hl : sanitize f.name = c!"_line_"
  · have hsk : sanitize f.name ∈ skipDefaults := by rw [hl]; decide
    rw [firstOf, if_pos hsk] at h3
    rw [if_pos (by rw [hl]; decide), eachText_append] at k1
    obtain ⟨t1, k3, k4⟩ := (bind_ok_iff _ _ _).1 k1
    rw [eachText, hcd, extractText, if_pos (by simp [isPatternAttr, hl])] at k3
    obtain ⟨t2, k5, k6⟩ := (bind_ok_iff _ _ _).1 k3
    cases k6
    obtain ⟨p, k7, k8⟩ := (bind_ok_iff _ _ _).1 k5
    cases k8
    have hr := sim [p] attrs _ ts ⟨⟨[], rfl, trivial⟩, rfl⟩ h3 k4
    obtain ⟨⟨qs, e, hq⟩, hset⟩ := hr
    have hp : p = c!".+" := by
      have := hok.1 hl
      simp only [e, List.cons_append, List.head?_cons, Option.some.injEq] at this
      exact this
    have hna : nameAttr ⟨f.name, sanitize f.name, .add, false, [], [], false, false, ign, false⟩ =
        ⟨f.name, sanitize f.name, .join, true, [reLINE], [], false, false, ign, false⟩ := by
      unfold nameAttr
      simp only [hl, if_true]
      rfl
    rw [hna] at f1 f2 f3 f4 f5
    refine ⟨by unfold varInfo; rw [hna]; exact f3, ?_, ?_, ?_, ?_⟩
    · unfold varInfo; rw [hna]; dsimp only; rw [f4, hl]; rfl
    · unfold varInfo; rw [hna]; dsimp only; rw [f2, hl, hset]; rfl
    · unfold varInfo; rw [hna]; dsimp only
      rw [f1, e, hp]
      exact reads_line qs _ hq
    · intro hi
      have hi' : sanitize f.name = c!"ignore" := hi
      rw [hl] at hi'
      exact absurd hi' (by decide)
  · have hts : StRel [] ts st := by
      by_cases hsk : sanitize f.name ∈ skipDefaults
      · rw [firstOf, if_pos hsk] at h3
        have hq : sanitize f.name = c!"ignore" ∨ sanitize f.name = c!"_start_" ∨ sanitize f.name = c!"_end_" := by
          simp only [skipDefaults, List.mem_cons, List.mem_nil_iff, or_false] at hsk
          rcases hsk with e | e | e | e
          · exact Or.inr (Or.inr e)
          · exact absurd e hl
          · exact Or.inl e
          · exact Or.inr (Or.inl e)
        rw [if_pos (by rcases hq with e | e | e <;> rw [e] <;> decide), eachText_append, eachText, hcd,
          first_quiet ctx line _ 999 _ hq] at k1
        exact sim [] attrs ⟨[], false⟩ ts start h3 k1
      · rw [firstOf, if_neg hsk] at h3
        exact sim [] _ ⟨[], false⟩ ts start h3 k1
    obtain ⟨⟨qs, e, hq⟩, hset⟩ := hts
    rw [List.nil_append] at e
    have hna : (nameAttr ⟨f.name, sanitize f.name, .add, false, [], [], false, false, ign, false⟩).pats = [] ∧
        (nameAttr ⟨f.name, sanitize f.name, .add, false, [], [], false, false, ign, false⟩).name = sanitize f.name ∧
        (nameAttr ⟨f.name, sanitize f.name, .add, false, [], [], false, false, ign, false⟩).ignArg = ign ∧
        (nameAttr ⟨f.name, sanitize f.name, .add, false, [], [], false, false, ign, false⟩).ignore = (sanitize f.name == c!"ignore") ∧
        (nameAttr ⟨f.name, sanitize f.name, .add, false, [], [], false, false, ign, false⟩).cut =
          (sanitize f.name == c!"_start_" || sanitize f.name == c!"_end_") := by
      unfold nameAttr
      dsimp only
      by_cases n1 : sanitize f.name = c!"_start_"
      · simp [n1]
      · by_cases n2 : sanitize f.name = c!"_end_"
        · simp [n2]
        · by_cases n3 : sanitize f.name = c!"ignore"
          · simp [n3]
          · simp [n1, n2, n3, hl]
    obtain ⟨n1, n2, n3, n4, n5⟩ := hna
    refine ⟨f3.trans n2, f4.trans n4, ?_, ?_, ?_⟩
    · rw [varInfo, f2, n5, ← hset]
    · rw [varInfo, f1, n1, List.nil_append]
      exact ⟨_, by rw [e]; exact hq, SameAll.refl _⟩
    · intro hi
      rw [varInfo, f5, n3]
      exact hign hi

/-! ## A line -/

/-- the variables of a line in both forms -/
theorem lineVariables_sim (ctx : LoadCtx) (hre : ctx.re = parseAll) (dflt : Val) (line : Str) (es : List (Elem Str)) :
    ∀ (d d' : Dict Key Val) (vds : List (Elem VarDef)) (sk : Bool) (vs : List (Elem TextVar)),
      lineVariables ctx dflt line es d = .ok (vds, d', sk) → textEls ctx line es = .ok vs → (∀ v ∈ elemVars vs, LineOk v) →
      ∃ ps : List (Elem (TextVar × VarInfo)), fsts ps = vs ∧ snds ps = vds.map infoEl ∧
        ∀ p ∈ elemVars ps, VarRel p.1 p.2 ∧ nameOk p.1.name = true := by
  induction es with
  | nil =>
    intro d d' vds sk vs h1 h2 _
    cases h1; cases h2
    exact ⟨[], rfl, rfl, by simp [elemVars]⟩
  | cons e es ih =>
    intro d d' vds sk vs h1 h2 h3
    cases e with
    | ch c =>
      rw [lineVariables] at h1
      rw [textEls] at h2
      obtain ⟨⟨vds', d1, s1⟩, a1, a2⟩ := (bind_ok_iff _ _ _).1 h1
      obtain ⟨vs', b1, b2⟩ := (bind_ok_iff _ _ _).1 h2
      cases a2; cases b2
      obtain ⟨ps, e1, e2, e3⟩ := ih d _ vds' _ vs' a1 b1 h3
      exact ⟨.ch c :: ps, by rw [← e1]; rfl, by rw [List.map_cons, ← e2]; rfl, e3⟩
    | var content =>
      rw [lineVariables] at h1
      rw [textEls] at h2
      obtain ⟨⟨vd, d1, s1⟩, a1, a2⟩ := (bind_ok_iff _ _ _).1 h1
      obtain ⟨⟨vds', d2, s2⟩, a3, a4⟩ := (bind_ok_iff _ _ _).1 a2
      obtain ⟨v, b1, b2⟩ := (bind_ok_iff _ _ _).1 h2
      obtain ⟨vs', b3, b4⟩ := (bind_ok_iff _ _ _).1 b2
      cases a4; cases b4
      obtain ⟨ps, e1, e2, e3⟩ := ih d1 _ vds' _ vs' a3 b3 (fun v hv => h3 v (by simp [elemVars, hv]))
      obtain ⟨hn, hr⟩ := loadVar_sim ctx hre dflt line content d d1 vd s1 v a1 b1
      refine ⟨.var (v, varInfo vd) :: ps, by rw [← e1]; rfl, by rw [List.map_cons, ← e2]; rfl, ?_⟩
      intro p hp
      simp only [elemVars, List.mem_cons] at hp
      rcases hp with rfl | hp
      · exact ⟨hr (h3 v (by simp [elemVars])), hn⟩
      · exact e3 p hp

/-- The whole line: what the loader makes of a line, and what the text of its regular expression is compiled to. -/
theorem loadLine_text (ctx : LoadCtx) (hre : ctx.re = parseAll) (dflt : Val) (line : Str) (d d' : Dict Key Val) (rx : LineRx)
    (h : loadLine ctx dflt line d = .ok (some rx, d')) (hh : headersVar ctx (elems (lstrip (rstrip line))) = none)
    (vs : List (Elem TextVar)) (hv : lineEls ctx line = .ok vs) (h1 : ∀ v ∈ elemVars vs, LineOk v) (h2 : ∀ v ∈ elemVars vs, v.ok) :
    ∃ T, compile (lineText line vs) = some T ∧ run T = run rx.re := by
  unfold loadLine at h
  dsimp only at h
  rw [hh] at h
  dsimp only at h
  obtain ⟨⟨es, d1, sk⟩, a1, a2⟩ := (bind_ok_iff _ _ _).1 h
  dsimp only at a2
  cases sk with
  | true => cases a2
  | false =>
    simp only [Bool.false_eq_true, if_false] at a2
    obtain ⟨rx', a3, a4⟩ := (bind_ok_iff _ _ _).1 a2
    cases a4
    have hnd : (names rx.re).Nodup ∧ rx = compileLine (contains (rstrip line) c!"_exact_") (contains (rstrip line) c!"_exact_space_")
        ((rstrip line).take ((rstrip line).length - (lstrip (rstrip line)).length)) es := by
      unfold compiled at a3
      split at a3
      · next hnd => cases a3; exact ⟨hnd, rfl⟩
      · cases a3
    obtain ⟨ps, e1, e2, e3⟩ := lineVariables_sim ctx hre dflt _ _ d _ es false vs a1 hv h1
    have hind : ∀ c ∈ (rstrip line).take ((rstrip line).length - (lstrip (rstrip line)).length), isSpace c = true := by
      intro c hc
      have hsplit : rstrip line = (rstrip line).takeWhile isSpace ++ lstrip (rstrip line) := (List.takeWhile_append_dropWhile).symm
      have : (rstrip line).take ((rstrip line).length - (lstrip (rstrip line)).length) = (rstrip line).takeWhile isSpace := by
        have hlen := congrArg List.length hsplit
        rw [List.length_append] at hlen
        have : (rstrip line).length - (lstrip (rstrip line)).length = ((rstrip line).takeWhile isSpace).length := by omega
        rw [this]
        conv => lhs; arg 2; rw [hsplit]
        exact List.take_left
      rw [this] at hc
      exact List.all_eq_true.1 (List.all_takeWhile (p := isSpace) (l := rstrip line)) c hc
    obtain ⟨T, t1, t2, t3⟩ := formLine_parse (contains (rstrip line) c!"_exact_") (contains (rstrip line) c!"_exact_space_") _ hind ps
      (fun p hp => by
        refine ⟨(e3 p hp).1, h2 p.1 ?_, (e3 p hp).2⟩
        rw [← e1, elemVars_map]
        exact List.mem_map.2 ⟨p, hp, rfl⟩)
    have hrx : rx.re = lineRe (contains (rstrip line) c!"_exact_") (contains (rstrip line) c!"_exact_space_")
        ((rstrip line).take ((rstrip line).length - (lstrip (rstrip line)).length)) (snds ps) := by
      rw [hnd.2, compileLine_re, e2]
    refine ⟨T, ?_, by rw [t2, hrx]⟩
    unfold compile lineText
    rw [← e1, t1]
    dsimp only
    rw [if_pos (by rw [t3, ← hrx]; exact hnd.1)]

end TTP
