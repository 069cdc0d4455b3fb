import Verif.Spec.Reports
import Verif.Props.GroupMore
import Verif.Props.OutFns
import Verif.Props.Json
/-!
# C149, C150: reports of validation, comparison of results

`callOut W t f data` is what the function `f` of the output tag `t` makes of the results `data`.
-/

namespace Props
open Py Spec TTP TTP.OutFn

/-! ## C149 -/

theorem sformat_names (fmt : Str → List Val → Dict Str Val → PyM Str) (ms : MS) (kvs : List (Str × Val)) (hk : (kvs.map Prod.fst).Nodup)
    (hv : Dict.WF ms.vars) (ps : List FPart) (hp : ∀ n, FPart.value n ∈ ps → PlainName n) (field : Str) (val : Str → Option Val)
    (hval : ∀ n, val n = (valueOf (asDict kvs) n).or ((Dict.get? ms.vars n).or (Dict.get? ms.gvars n))) :
    (∀ t, FilledIn val ps t →
      GroupFn.sformat fmt ms (.dict (asDict kvs)) (.str (fmtSource ps)) (.str field) = .ok (.dict (Dict.set (asDict kvs) (.s field) (.str t)))) ∧
    ((∃ n, FPart.value n ∈ ps ∧ val n = none) →
      GroupFn.sformat fmt ms (.dict (asDict kvs)) (.str (fmtSource ps)) (.str field) = .ok (.dict (asDict kvs))) := by
  have h := C117_group_sformat { Ex.gworld with fmt := fmt } ms kvs hk hv ps hp field val hval
  have e : GroupFn.builtin { Ex.gworld with fmt := fmt } (fn c!"sformat" [.str (fmtSource ps), .str field]) ms (.dict (asDict kvs)) =
      (do
        let v ← GroupFn.sformat fmt ms (.dict (asDict kvs)) (.str (fmtSource ps)) (.str field)
        pure (ms, v, some true)) := rfl
  rw [e] at h
  refine ⟨fun t ht => ?_, fun hn => ?_⟩
  · obtain ⟨v, h1, h2⟩ := (bind_ok_iff _ _ _).1 (h.1 t ht)
    cases h2; exact h1
  · obtain ⟨v, h1, h2⟩ := (bind_ok_iff _ _ _).1 (h.2 hn)
    cases h2; exact h1

/-- `r` is the report of the item `d`: what the validator says of it by the schema, in the field `result`, the text `ps` with the values of the item
and the variables filled in as `info`, if the text is not empty, and the errors in the field `field`, if it has a name -/
def ItemReport (W : OutWorld) (sc : Val) (result : Str) (ps : List FPart) (field : Str) (d : Dict Key Val) (r : Val) : Prop :=
  ∃ kvs b errs info, d = asDict kvs ∧ (kvs.map Prod.fst).Nodup ∧ W.validator sc (.bool true) (.dict d) = .ok (b, errs) ∧
    r = .dict (verdictReport result b info (if field = [] then none else some (field, errs))) ∧
    ((fmtSource ps = [] ∧ info = none) ∨
      ∃ t, info = some t ∧ fmtSource ps ≠ [] ∧ valueOf d c!"inf" = none ∧
        InfoText (fun n => (valueOf d n).or ((Dict.get? W.vars n).or (Dict.get? W.gvars n))) ps t)

theorem runValidation_report (W : OutWorld) (hv : Dict.WF W.vars) (sc : Val) (result : Str) (ps : List FPart) (hp : ∀ n, FPart.value n ∈ ps → PlainName n)
    (field : Str) (d : Dict Key Val) (r : Val) (h : ItemReport W sc result ps field d r) :
    ∃ d', runValidation W ⟨.str result, .str (fmtSource ps), .str field, .bool true⟩ sc d = .ok (d', r) ∧
      (fmtSource ps = [] → d' = d) ∧
      (∀ t, fmtSource ps ≠ [] → FilledIn (fun n => (valueOf d n).or ((Dict.get? W.vars n).or (Dict.get? W.gvars n))) ps t →
        d' = Dict.set d (.s c!"inf") (.str t)) := by
  obtain ⟨kvs, b, errs, info, rfl, hk, hb, rfl, hi⟩ := h
  obtain ⟨s1, s2⟩ := sformat_names W.fmt ⟨.none, [], [], Record.empty, [], W.vars, W.gvars⟩ kvs hk hv ps hp c!"inf" _ (fun n => rfl)
  have herr : ∀ ret, reportErrors (.str field) errs ret = .ok (if field = [] then ret else Dict.set ret (.s field) errs) := by
    intro ret
    unfold reportErrors
    cases field <;> rfl
  unfold runValidation
  rw [hb, ok_bind]
  rcases hi with ⟨he, rfl⟩ | ⟨t, rfl, hne, hinf, ht⟩
  · have hri : reportInfo W ⟨.str result, .str (fmtSource ps), .str field, .bool true⟩ (asDict kvs) [(.s result, .bool b)] = (asDict kvs, [(.s result, .bool b)]) := by
      unfold reportInfo
      rw [he]; rfl
    refine ⟨asDict kvs, ?_, fun _ => rfl, fun t h => absurd he h⟩
    show (do
      let ret ← reportErrors (.str field) errs (reportInfo W _ (asDict kvs) [(.s result, .bool b)]).2
      pure ((reportInfo W _ (asDict kvs) [(.s result, .bool b)]).1, Val.dict ret) : PyM _) = _
    rw [hri, herr, ok_bind]
    unfold verdictReport
    by_cases hf : field = []
    · rw [if_pos hf, if_pos hf]; rfl
    · rw [if_neg hf, if_neg hf]; rfl
  · have htr : (Val.str (fmtSource ps)).truthy = true := by
      cases h : fmtSource ps with
      | nil => exact absurd h hne
      | cons => rfl
    have fin : ∀ d', reportInfo W ⟨.str result, .str (fmtSource ps), .str field, .bool true⟩ (asDict kvs) [(.s result, .bool b)] =
          (d', Dict.set [(.s result, .bool b)] (.s c!"info") (.str t)) →
        (do
          let k ← MatchFn.asKey (.str result)
          let p := reportInfo W ⟨.str result, .str (fmtSource ps), .str field, .bool true⟩ (asDict kvs) [(k, .bool (b, errs).1)]
          let ret ← reportErrors (.str field) (b, errs).2 p.2
          pure (p.1, Val.dict ret) : PyM _) =
          .ok (d', .dict (verdictReport result b (some t) (if field = [] then none else some (field, errs)))) := by
      intro d' hri
      show (do
        let ret ← reportErrors (.str field) errs (reportInfo W _ (asDict kvs) [(.s result, .bool b)]).2
        pure ((reportInfo W _ (asDict kvs) [(.s result, .bool b)]).1, Val.dict ret) : PyM _) = _
      rw [hri, herr, ok_bind]
      unfold verdictReport
      by_cases hf : field = []
      · rw [if_pos hf, if_pos hf]; rfl
      · rw [if_neg hf, if_neg hf]; rfl
    have hinf' : Dict.get? (asDict kvs) (.s c!"inf") = none := hinf
    cases ht with
    | filled hf =>
      refine ⟨Dict.set (asDict kvs) (.s c!"inf") (.str t), fin _ ?_, fun h => absurd h hne, fun t' _ hf' => ?_⟩
      · unfold reportInfo OutFn.infoOf
        rw [s1 t hf]
        dsimp only
        rw [Dict.get?_set_self, if_pos htr]
      · have h1 := s1 t hf
        rw [s1 t' hf'] at h1
        injection h1 with h1; injection h1 with h1; exact h1.symm
    | @unknown n hn hz =>
      refine ⟨asDict kvs, fin _ ?_, fun h => absurd h hne, fun t' _ hf' => ?_⟩
      · unfold reportInfo OutFn.infoOf
        rw [s2 ⟨n, hn, hz⟩]
        dsimp only
        rw [hinf', if_pos htr]
      · have h1 := s1 t' hf'
        rw [s2 ⟨n, hn, hz⟩] at h1
        injection h1 with h1; injection h1 with h1

theorem validateItems_reports (W : OutWorld) (hv : Dict.WF W.vars) (sc : Val) (result : Str) (ps : List FPart) (hp : ∀ n, FPart.value n ∈ ps → PlainName n)
    (field : Str) (vs rs : List Val) (h : All2 (ItemReport W sc result ps field) (dictsOf vs) rs) :
    ∃ vs', validateItems W ⟨.str result, .str (fmtSource ps), .str field, .bool true⟩ sc vs = .ok (vs', rs) := by
  induction vs generalizing rs with
  | nil => cases h; exact ⟨[], rfl⟩
  | cons v vs ih =>
    by_cases hd : ∃ d, v = .dict d
    · obtain ⟨d, rfl⟩ := hd
      have e : dictsOf (.dict d :: vs) = d :: dictsOf vs := rfl
      rw [e] at h
      cases h with
      | cons h1 h2 =>
        obtain ⟨d', hd, _⟩ := runValidation_report W hv sc result ps hp field d _ h1
        obtain ⟨vs', hvs⟩ := ih _ h2
        exact ⟨.dict d' :: vs', by rw [validateItems, hd, ok_bind, hvs]; rfl⟩
    · have e : dictsOf (v :: vs) = dictsOf vs := by
        cases v with
        | dict d => exact absurd ⟨d, rfl⟩ hd
        | _ => rfl
      rw [e] at h
      obtain ⟨vs', hvs⟩ := ih rs h
      refine ⟨v :: vs', ?_⟩
      have e2 : validateItems W ⟨.str result, .str (fmtSource ps), .str field, .bool true⟩ sc (v :: vs) = (do
          let rs ← validateItems W ⟨.str result, .str (fmtSource ps), .str field, .bool true⟩ sc vs
          pure (v :: rs.1, rs.2)) := by
        cases v with
        | dict d => exact absurd ⟨d, rfl⟩ hd
        | _ => rfl
      rw [e2, hvs]; rfl

theorem validate_call (W : OutWorld) (t : OutTag) (name result info field : Str) (data : Val) :
    callOut W t ⟨c!"validate", [.str name, .str result, .str info, .str field], []⟩ data = (do
      let r ← validateOut W ⟨.str result, .str info, .str field, .bool true⟩ name data
      pure r.2) := rfl

/-- C149. The output function `validate("schema", result, info, errors)` gives the report of the results if they are one dictionary, and the reports
of the dictionaries among them, in order, if they are a list. -/
theorem C149_reports (W : OutWorld) (hv : Dict.WF W.vars) (t : OutTag) (name : Str) (sc : Val) (hsc : Dict.get? W.tvars name = some sc) (htr : sc.truthy = true)
    (result field : Str) (ps : List FPart) (hp : ∀ n, FPart.value n ∈ ps → PlainName n) :
    (∀ d r, ItemReport W sc result ps field d r →
      callOut W t ⟨c!"validate", [.str name, .str result, .str (fmtSource ps), .str field], []⟩ (.dict d) = .ok r) ∧
    (∀ vs rs, All2 (ItemReport W sc result ps field) (dictsOf vs) rs →
      callOut W t ⟨c!"validate", [.str name, .str result, .str (fmtSource ps), .str field], []⟩ (.list vs) = .ok (.list rs)) := by
  have hs : GroupFn.schemaOf W.tvars name = some sc := by
    unfold GroupFn.schemaOf; rw [hsc]; dsimp only; rw [if_pos htr]
  refine ⟨fun d r h => ?_, fun vs rs h => ?_⟩
  · obtain ⟨d', hd, _⟩ := runValidation_report W hv sc result ps hp field d r h
    rw [validate_call]
    unfold validateOut
    rw [hs]
    dsimp only
    rw [validateWith, hd]
    rfl
  · obtain ⟨vs', hvs⟩ := validateItems_reports W hv sc result ps hp field vs rs h
    rw [validate_call]
    unfold validateOut
    rw [hs]
    dsimp only
    rw [validateWith, hvs]
    rfl

/-- C149. Without the schema variable, or if it is empty, the results stay as they are. -/
theorem C149_no_schema (W : OutWorld) (t : OutTag) (name : Str) (h : ∀ sc, Dict.get? W.tvars name = some sc → sc.truthy = false) (result info field : Str) (data : Val) :
    callOut W t ⟨c!"validate", [.str name, .str result, .str info, .str field], []⟩ data = .ok data := by
  rw [validate_call]
  have hs : GroupFn.schemaOf W.tvars name = none := by
    unfold GroupFn.schemaOf
    cases hg : Dict.get? W.tvars name with
    | none => rfl
    | some v => dsimp only; rw [if_neg (by rw [h v hg]; decide)]
  unfold validateOut
  rw [hs]
  rfl

/-- C149, what a user does not expect: with `info`, the results themselves change - each item gets the text as a further field `inf` - and results
that are neither a dictionary nor a list (a text of a formatter before, say) are replaced by nothing. -/
theorem C149_changes_results (W : OutWorld) (hv : Dict.WF W.vars) (t : OutTag) (name : Str) (sc : Val) (hsc : Dict.get? W.tvars name = some sc)
    (htr : sc.truthy = true) (result field : Str) (ps : List FPart) (hp : ∀ n, FPart.value n ∈ ps → PlainName n) :
    (∀ d r s, ItemReport W sc result ps field d r → fmtSource ps ≠ [] →
      FilledIn (fun n => (valueOf d n).or ((Dict.get? W.vars n).or (Dict.get? W.gvars n))) ps s →
      validateOut W ⟨.str result, .str (fmtSource ps), .str field, .bool true⟩ name (.dict d) = .ok (.dict (Dict.set d (.s c!"inf") (.str s)), r)) ∧
    (∀ s, callOut W t ⟨c!"validate", [.str name, .str result, .str (fmtSource ps), .str field], []⟩ (.str s) = .ok .none) := by
  have hs : GroupFn.schemaOf W.tvars name = some sc := by
    unfold GroupFn.schemaOf; rw [hsc]; dsimp only; rw [if_pos htr]
  refine ⟨fun d r s h hne hf => ?_, fun s => ?_⟩
  · obtain ⟨d', hd, _, h2⟩ := runValidation_report W hv sc result ps hp field d r h
    unfold validateOut
    rw [hs]
    dsimp only
    rw [validateWith, hd, ok_bind, h2 s hne hf]
    rfl
  · rw [validate_call]
    unfold validateOut
    rw [hs]
    rfl

/-! ## C150 -/

/-- the results of the inputs one after the other -/
def allResults (blocks : List (Str × List Val)) : List Val := blocks.flatMap Prod.snd

/-- names of the inputs with the numbers of their data items -/
def inputCounts (blocks : List (Str × List Val)) : List (Str × Nat) := blocks.map (fun b => (b.1, b.2.length))

theorem indexOf_block (blocks : List (Str × List Val)) (hn : (blocks.map Prod.fst).Nodup) (name : Str) (xs : List Val) (h : (name, xs) ∈ blocks) (n : Nat) :
    ∃ pre post, allResults blocks = pre ++ xs ++ post ∧ indexOf name (inputCounts blocks) n = .ok (n + pre.length, xs.length) := by
  induction blocks generalizing n with
  | nil => cases h
  | cons b bs ih =>
    have e1 : allResults (b :: bs) = b.2 ++ allResults bs := rfl
    have e2 : inputCounts (b :: bs) = (b.1, b.2.length) :: inputCounts bs := rfl
    rw [List.map_cons, List.nodup_cons] at hn
    rcases List.mem_cons.1 h with rfl | h
    · exact ⟨[], allResults bs, by rw [e1]; rfl, by rw [e2, indexOf, if_pos rfl]; rfl⟩
    · have hne : b.1 ≠ name := by
        rintro rfl
        exact hn.1 (List.mem_map.2 ⟨_, h, rfl⟩)
      obtain ⟨pre, post, h1, h2⟩ := ih hn.2 h (n + b.2.length)
      refine ⟨b.2 ++ pre, post, by rw [e1, h1]; simp, ?_⟩
      rw [e2, indexOf, if_neg hne, h2, List.length_append, Nat.add_assoc]

theorem inputItems_block (W : OutWorld) (blocks : List (Str × List Val)) (hn : (blocks.map Prod.fst).Nodup) (hw : W.inputs = inputCounts blocks)
    (name : Str) (xs : List Val) (h : (name, xs) ∈ blocks) : inputItems W (.list (allResults blocks)) name = .ok xs := by
  obtain ⟨pre, post, h1, h2⟩ := indexOf_block blocks hn name xs h 0
  unfold inputItems
  rw [hw, h2, ok_bind]
  unfold itemsAt
  dsimp only
  rw [if_pos, h1]
  · rw [Nat.zero_add, List.append_assoc, List.drop_left, List.take_left]; rfl
  · right; rw [h1]; simp only [List.length_append]; omega

/-- `deepdiff("before", "after", mode=..., add_field=..., **options)` -/
def diffCall (before after : Str) (mode : Str) (field : Option Str) (opts : Dict Str Val) : FnCall :=
  ⟨c!"deepdiff", [.str before, .str after], (c!"mode", .str mode) :: field.toList.map (fun f => (c!"add_field", .str f)) ++ opts⟩

/-- options are none of the other arguments -/
def DiffOptions (opts : Dict Str Val) : Prop :=
  ∀ kv ∈ opts, kv.1 ∉ [c!"input_before", c!"input_after", c!"template_before", c!"mode", c!"add_field", c!"var_before"]

theorem diff_split (before after : Str) (mode : Str) (field : Option Str) (opts : Dict Str Val) (ho : DiffOptions opts) :
    (diffCall before after mode field opts).kwargs.filter (fun kv => diffParams.contains kv.1) =
      (c!"mode", .str mode) :: field.toList.map (fun f => (c!"add_field", .str f)) ∧
    (diffCall before after mode field opts).kwargs.filter (fun kv => !diffParams.contains kv.1) = opts := by
  have h1 : opts.filter (fun kv => diffParams.contains kv.1) = [] := by
    rw [List.filter_eq_nil_iff]
    intro kv hkv h
    exact ho kv hkv (List.contains_iff_mem.1 h)
  have h2 : opts.filter (fun kv => !diffParams.contains kv.1) = opts := by
    rw [List.filter_eq_self]
    intro kv hkv
    simp only [Bool.not_eq_true', Bool.eq_false_iff]
    intro h
    exact ho kv hkv (List.contains_iff_mem.1 h)
  unfold diffCall
  constructor
  · cases field with
    | none =>
      show List.filter _ ((c!"mode", .str mode) :: opts) = _
      rw [List.filter_cons_of_pos (by rfl), h1]; rfl
    | some f =>
      show List.filter _ ((c!"mode", .str mode) :: (c!"add_field", .str f) :: opts) = _
      rw [List.filter_cons_of_pos (by rfl), List.filter_cons_of_pos (by rfl), h1]; rfl
  · cases field with
    | none =>
      show List.filter _ ((c!"mode", .str mode) :: opts) = _
      rw [List.filter_cons_of_neg (by simp [diffParams]), h2]
    | some f =>
      show List.filter _ ((c!"mode", .str mode) :: (c!"add_field", .str f) :: opts) = _
      rw [List.filter_cons_of_neg (by simp [diffParams]), List.filter_cons_of_neg (by simp [diffParams]), h2]

theorem diff_call (W : OutWorld) (t : OutTag) (before after : Str) (hb : before ≠ []) (ha : after ≠ []) (mode : Str) (field : Option Str) (opts : Dict Str Val)
    (ho : DiffOptions opts) (data : Val) :
    callOut W t (diffCall before after mode field opts) data =
      diffRun W data (some before) (some after) none none (.str mode) ((field.map Val.str).getD (.bool false)) opts := by
  have e : callOut W t (diffCall before after mode field opts) data = deepdiffFn W (diffCall before after mode field opts) data := by
    unfold callOut diffCall; rfl
  rw [e]
  unfold deepdiffFn
  obtain ⟨h1, h2⟩ := diff_split before after mode field opts ho
  rw [h1, h2]
  have n1 : nameArg (some (.str before)) = .ok (some before) := by
    cases before with
    | nil => exact absurd rfl hb
    | cons => rfl
  have n2 : nameArg (some (.str after)) = .ok (some after) := by
    cases after with
    | nil => exact absurd rfl ha
    | cons => rfl
  cases field with
  | none =>
    have hbind : MatchFn.bindArgs diffParams ⟨c!"deepdiff", [.str before, .str after], [(c!"mode", .str mode)]⟩ =
        .ok [some (.str before), some (.str after), none, some (.str mode), none, none] := rfl
    show (do
      let as ← MatchFn.bindArgs diffParams ⟨c!"deepdiff", [.str before, .str after], [(c!"mode", .str mode)]⟩
      _ : PyM _) = _
    rw [hbind, ok_bind]
    simp only [List.getD_cons_zero, List.getD_cons_succ, n1, n2, ok_bind]
    rfl
  | some f =>
    have hbind : MatchFn.bindArgs diffParams ⟨c!"deepdiff", [.str before, .str after], [(c!"mode", .str mode), (c!"add_field", .str f)]⟩ =
        .ok [some (.str before), some (.str after), none, some (.str mode), some (.str f), none] := rfl
    show (do
      let as ← MatchFn.bindArgs diffParams ⟨c!"deepdiff", [.str before, .str after], [(c!"mode", .str mode), (c!"add_field", .str f)]⟩
      _ : PyM _) = _
    rw [hbind, ok_bind]
    simp only [List.getD_cons_zero, List.getD_cons_succ, n1, n2, ok_bind]
    rfl

theorem diffEach_all (W : OutWorld) (opts : Dict Str Val) (x : Val) (xs ys rs : List Val) (h : All2 (fun y r => W.deepdiff x y opts = .ok r) ys rs) :
    diffEach W opts (some (.list (x :: xs))) ys = .ok rs := by
  induction h with
  | nil => rfl
  | cons h _ ih =>
    rw [diffEach]
    show (do
      let r ← W.deepdiff x _ opts
      pure (r :: (← diffEach W opts (some (.list (x :: xs))) _)) : PyM _) = _
    rw [h, ok_bind, ih]; rfl

/-- the result in its place: instead of the results, or after them in a dictionary with the name -/
def diffPlaced (data : List Val) (field : Option Str) (result : Val) : Val :=
  match field with
  | some f => .list (data ++ [.dict [(.s f, result)]])
  | none => result

theorem placed_eq (data : List Val) (field : Option Str) (hf : field ≠ some []) (r : Val) :
    placed ((field.map Val.str).getD (.bool false)) (.list data) r = .ok (diffPlaced data field r) := by
  cases field with
  | none => rfl
  | some f =>
    cases f with
    | nil => exact absurd rfl hf
    | cons => rfl

/-- C150. `deepdiff("before", "after")` of results per input compares exactly the results of the data of the one input with those of the other,
wherever these inputs are and however many data items the inputs have: in mode `bulk` as two lists, in mode `iterate` each result of `after` with
the first one of `before`. With `add_field` the outcome is added to the results, else it replaces them. -/
theorem C150_deepdiff (W : OutWorld) (t : OutTag) (blocks : List (Str × List Val)) (hn : (blocks.map Prod.fst).Nodup) (hw : W.inputs = inputCounts blocks)
    (hm : W.method = c!"per_input") (before after : Str) (hb : before ≠ []) (ha : after ≠ []) (xs ys : List Val) (hx : (before, xs) ∈ blocks)
    (hy : (after, ys) ∈ blocks) (field : Option Str) (hf : field ≠ some []) (opts : Dict Str Val) (ho : DiffOptions opts) :
    (∀ r, W.deepdiff (.list xs) (.list ys) opts = .ok r →
      callOut W t (diffCall before after c!"bulk" field opts) (.list (allResults blocks)) = .ok (diffPlaced (allResults blocks) field r)) ∧
    (∀ x xs' rs, xs = x :: xs' → All2 (fun y r => W.deepdiff x y opts = .ok r) ys rs →
      callOut W t (diffCall before after c!"iterate" field opts) (.list (allResults blocks)) = .ok (diffPlaced (allResults blocks) field (.list rs))) := by
  have hi := inputItems_block W blocks hn hw before xs hx
  have hj := inputItems_block W blocks hn hw after ys hy
  have hmm : ¬ ((some before).isSome = true ∧ W.method = c!"per_template") := by
    rw [hm]; rintro ⟨_, h⟩; revert h; decide
  constructor
  · intro r hr
    rw [diff_call W t before after hb ha _ field opts ho]
    unfold diffRun
    rw [if_neg hmm, dataBefore, hi, ok_bind, pure_ok, ok_bind, dataAfter]
    rw [if_pos (show (some before).isSome = true from rfl), hj, ok_bind, pure_ok, ok_bind]
    unfold compareWith
    rw [if_pos rfl]
    dsimp only [bound]
    rw [pure_ok, ok_bind, hr, ok_bind, pure_ok, ok_bind]
    exact placed_eq _ field hf r
  · rintro x xs' rs rfl hr
    rw [diff_call W t before after hb ha _ field opts ho]
    unfold diffRun
    rw [if_neg hmm, dataBefore, hi, ok_bind, pure_ok, ok_bind, dataAfter]
    rw [if_pos (show (some before).isSome = true from rfl), hj, ok_bind, pure_ok, ok_bind]
    unfold compareWith
    rw [if_neg (by decide), if_pos rfl]
    dsimp only [itemsOf]
    rw [pure_ok, ok_bind, diffEach_all W opts x xs' ys rs hr, ok_bind, pure_ok, ok_bind]
    exact placed_eq _ field hf _

/-- C150. The results can be compared with the results of another template - the first of that name - or with a template variable instead. -/
theorem C150_other_sources (W : OutWorld) (t : OutTag) (data b r : Val) (name : Str) (hne : name ≠ []) (hr : W.deepdiff b data [] = .ok r) :
    ((∃ pre post, W.templates = pre ++ (name, b) :: post ∧ ∀ e ∈ pre, e.1 ≠ name) →
      callOut W t ⟨c!"deepdiff", [], [(c!"template_before", .str name)]⟩ data = .ok r) ∧
    (Dict.get? W.tvars name = some b → callOut W t ⟨c!"deepdiff", [], [(c!"var_before", .str name)]⟩ data = .ok r) := by
  have n1 : nameArg (some (.str name)) = .ok (some name) := by
    cases name with
    | nil => exact absurd rfl hne
    | cons => rfl
  have hd : diffRun W data none none none (some name) (.str c!"bulk") (.bool false) [] = (do
      let b ← dataBefore W data none none (some name)
      match ← compareWith W [] (.str c!"bulk") b data with
      | some r => placed (.bool false) data r
      | none => pure data) := by
    unfold diffRun
    rw [if_neg (by rintro ⟨h, _⟩; cases h)]; rfl
  have hd2 : diffRun W data none none (some name) none (.str c!"bulk") (.bool false) [] = (do
      let b ← dataBefore W data none (some name) none
      match ← compareWith W [] (.str c!"bulk") b data with
      | some r => placed (.bool false) data r
      | none => pure data) := by
    unfold diffRun
    rw [if_neg (by rintro ⟨h, _⟩; cases h)]; rfl
  have hc : compareWith W [] (.str c!"bulk") (some b) data = .ok (some r) := by
    unfold compareWith
    rw [if_pos rfl]
    dsimp only [bound]
    rw [pure_ok, ok_bind, hr]; rfl
  constructor
  · rintro ⟨pre, post, ht, hp⟩
    have e : callOut W t ⟨c!"deepdiff", [], [(c!"template_before", .str name)]⟩ data = (do
        let tb ← nameArg (some (.str name))
        diffRun W data none none tb none (.str c!"bulk") (.bool false) []) := rfl
    rw [e, n1, ok_bind, hd2, dataBefore]
    have hfind : W.templates.find? (fun e => e.1 == name) = some (name, b) := by
      rw [ht, List.find?_append, List.find?_eq_none.2 (by intro e he; simpa using hp e he)]
      simp
    rw [hfind, pure_ok, ok_bind]
    dsimp only [Option.map]
    rw [hc]; rfl
  · intro hv
    have e : callOut W t ⟨c!"deepdiff", [], [(c!"var_before", .str name)]⟩ data = (do
        let vb ← nameArg (some (.str name))
        diffRun W data none none none vb (.str c!"bulk") (.bool false) []) := rfl
    rw [e, n1, ok_bind, hd, dataBefore, hv]
    dsimp only
    rw [pure_ok, ok_bind, hc]; rfl

/-- C150, what is not caught: `input_after` without `input_before`, nothing to compare with at all, or a template that does not exist, end with
an error; an input that does not exist, too. -/
theorem C150_errors (W : OutWorld) (t : OutTag) (data : Val) (n : Str) (hne : n ≠ []) :
    callOut W t ⟨c!"deepdiff", [], []⟩ data = .error .unboundLocal ∧
    (∀ v, Dict.get? W.tvars c!"old" = some v →
      callOut W t ⟨c!"deepdiff", [], [(c!"var_before", .str c!"old"), (c!"input_after", .str n)]⟩ data = .error .unboundLocal) ∧
    ((∀ e ∈ W.templates, e.1 ≠ n) → callOut W t ⟨c!"deepdiff", [], [(c!"template_before", .str n)]⟩ data = .error .unboundLocal) ∧
    ((∀ e ∈ W.inputs, e.1 ≠ n) → W.method = c!"per_input" → callOut W t ⟨c!"deepdiff", [.str n], []⟩ data = .error .keyError) := by
  have n1 : nameArg (some (.str n)) = .ok (some n) := by
    cases n with
    | nil => exact absurd rfl hne
    | cons => rfl
  refine ⟨?_, fun v hv => ?_, fun h => ?_, fun h hm => ?_⟩
  · have e : callOut W t ⟨c!"deepdiff", [], []⟩ data = diffRun W data none none none none (.str c!"bulk") (.bool false) [] := rfl
    rw [e]
    unfold diffRun
    rw [if_neg (by rintro ⟨h, _⟩; cases h)]; rfl
  · have e : callOut W t ⟨c!"deepdiff", [], [(c!"var_before", .str c!"old"), (c!"input_after", .str n)]⟩ data = (do
        let ia ← nameArg (some (.str n))
        diffRun W data none ia none (some c!"old") (.str c!"bulk") (.bool false) []) := rfl
    rw [e, n1, ok_bind]
    unfold diffRun
    rw [if_neg (by rintro ⟨h, _⟩; cases h), dataBefore, hv]
    rfl
  · have e : callOut W t ⟨c!"deepdiff", [], [(c!"template_before", .str n)]⟩ data = (do
        let tb ← nameArg (some (.str n))
        diffRun W data none none tb none (.str c!"bulk") (.bool false) []) := rfl
    rw [e, n1, ok_bind]
    unfold diffRun
    rw [if_neg (by rintro ⟨h, _⟩; cases h), dataBefore, List.find?_eq_none.2 (by intro e he; simpa using h e he)]
    rfl
  · have e : callOut W t ⟨c!"deepdiff", [.str n], []⟩ data = (do
        let ib ← nameArg (some (.str n))
        diffRun W data ib none none none (.str c!"bulk") (.bool false) []) := rfl
    rw [e, n1, ok_bind]
    unfold diffRun
    rw [if_neg (by rw [hm]; rintro ⟨_, h⟩; revert h; decide), dataBefore]
    have : ∀ (l : List (Str × Nat)) k, (∀ e ∈ l, e.1 ≠ n) → indexOf n l k = .error .keyError := by
      intro l
      induction l with
      | nil => intro k _; rfl
      | cons a l ih =>
        intro k hl
        rw [indexOf, if_neg (hl a (by simp))]
        exact ih _ (fun e he => hl e (by simp [he]))
    unfold inputItems
    rw [this _ _ h]
    rfl

/-- C133. An output tag with `format="json"` makes of results with texts as keys a text that is a JSON document of the same data. -/
theorem C133_json_tag (fl : Str → Str) (W : OutWorld) (t : OutTag) (v : Val) (hw : DeepWF v) (hf : FloatsOk fl v) (hk : TextKeys v) (ho : OneKind v) :
    ∃ f s w, formatTag W t c!"json" = some f ∧ f v = .ok (.str s) ∧ JDocument fl s w ∧ SameVal v w := by
  obtain ⟨s, hs⟩ := (C133_defined v).1 ho
  obtain ⟨w, h1, h2⟩ := C133_equal fl v s hw hf hk hs
  refine ⟨_, s, w, rfl, ?_, h1, h2⟩
  rw [hs]; rfl

/-! ## Examples -/

namespace Ex

/-- an output with a schema that asks for the variable `ip`, three inputs, and a comparison that only tells whether the data are the same -/
def rworld : OutWorld := { ow with
  tvars := [(c!"need", .str c!"ip"), (c!"old", .list [.int 1])]
  validator := fun sc _ d => match sc, d with
    | .str k, .dict d => pure (Dict.has d (.s k), .str c!"missing")
    | _, _ => throw .typeError
  deepdiff := fun a b _ => pure (.bool (decide (a = b)))
  inputs := [(c!"x", 1), (c!"before", 2), (c!"after", 2)]
  templates := [(c!"first", .list [.int 7])] }

end Ex

/-- a list with a record that is valid, one that is not, and a text -/
example (t : OutTag) : callOut Ex.rworld t ⟨c!"validate", [.str c!"need", .str c!"ok", .str c!"{site}: {name}", .str c!"why"], []⟩
      (.list [.dict [(.s c!"ip", .str c!"1"), (.s c!"name", .str c!"Lo0")], .str c!"text", .dict [(.s c!"mask", .int 24)]]) =
    .ok (.list [.dict [(.s c!"ok", .bool true), (.s c!"info", .str c!"s1: Lo0"), (.s c!"why", .str c!"missing")],
      .dict [(.s c!"ok", .bool false), (.s c!"info", .str c!"{site}: {name}"), (.s c!"why", .str c!"missing")]]) := by
  refine (C149_reports Ex.rworld (by unfold Dict.WF; decide) t c!"need" (.str c!"ip") rfl rfl c!"ok" c!"why" [.value c!"site", .text c!": ", .value c!"name"]
    (by intro n hn; simp at hn; rcases hn with rfl | rfl
        · exact ⟨⟨'s', by decide, by decide⟩, by decide⟩
        · exact ⟨⟨'n', by decide, by decide⟩, by decide⟩)).2 _ _ (.cons ?_ (.cons ?_ .nil))
  · exact ⟨[(c!"ip", .str c!"1"), (c!"name", .str c!"Lo0")], true, .str c!"missing", some c!"s1: Lo0", rfl, by decide, rfl, rfl,
      .inr ⟨_, rfl, by decide, rfl, .filled (.value (v := .str c!"s1") rfl (.text (.value (v := .str c!"Lo0") rfl .nil)))⟩⟩
  · exact ⟨[(c!"mask", .int 24)], false, .str c!"missing", some c!"{site}: {name}", rfl, by decide, rfl, rfl,
      .inr ⟨_, rfl, by decide, rfl, .unknown (n := c!"name") (by simp) rfl⟩⟩

example (t : OutTag) : callOut Ex.rworld t (diffCall c!"before" c!"after" c!"iterate" (some c!"diff") [(c!"verbose_level", .int 2)])
      (.list [.int 0, .int 1, .int 2, .int 3, .int 1]) =
    .ok (.list [.int 0, .int 1, .int 2, .int 3, .int 1, .dict [(.s c!"diff", .list [.bool false, .bool true])]]) :=
  (C150_deepdiff Ex.rworld t [(c!"x", [.int 0]), (c!"before", [.int 1, .int 2]), (c!"after", [.int 3, .int 1])] (by decide) rfl rfl c!"before" c!"after"
    (by decide) (by decide) [.int 1, .int 2] [.int 3, .int 1] (by simp) (by simp) (some c!"diff") (by decide) [(c!"verbose_level", .int 2)]
    (by intro kv h; simp at h; subst h; decide)).2 (.int 1) [.int 2] [.bool false, .bool true] rfl (.cons rfl (.cons rfl .nil))

example (t : OutTag) : callOut Ex.rworld t ⟨c!"deepdiff", [], [(c!"template_before", .str c!"first")]⟩ (.list [.int 7]) = .ok (.bool true) ∧
    callOut Ex.rworld t ⟨c!"deepdiff", [], [(c!"var_before", .str c!"old")]⟩ (.list [.int 7]) = .ok (.bool false) :=
  ⟨(C150_other_sources Ex.rworld t _ (.list [.int 7]) _ c!"first" (by decide) rfl).1 ⟨[], [], rfl, by simp⟩,
   (C150_other_sources Ex.rworld t _ (.list [.int 1]) _ c!"old" (by decide) rfl).2 rfl⟩

end Props
