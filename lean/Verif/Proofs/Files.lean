import Verif.Spec.Files
import Verif.Props.EndToEnd
import Verif.Props.Extend
/-!
# Lemmas: data given as paths
-/

namespace Props
open Py Spec TTP

theorem All2_map {α β γ δ : Type} {r : γ → δ → Prop} (f : α → γ) (g : β → δ) (as : List α) (bs : List β)
    (h : All2 (fun a b => r (f a) (g b)) as bs) : All2 r (as.map f) (bs.map g) := by
  induction h with
  | nil => exact .nil
  | cons h1 _ ih => exact .cons h1 ih

theorem All2_append' {α β : Type} {r : α → β → Prop} {as cs : List α} {bs ds : List β} (h1 : All2 r as bs) (h2 : All2 r cs ds) :
    All2 r (as ++ cs) (bs ++ ds) := by
  induction h1 with
  | nil => exact h2
  | cons h _ ih => exact .cons h ih

theorem All2_refl' {α : Type} {r : α → α → Prop} (h : ∀ a, r a a) (as : List α) : All2 r as as := by
  induction as with
  | nil => exact .nil
  | cons a as ih => exact .cons (h a) ih

/-- the two data items are parsed alike by this template -/
def Alike (E : Engine) (t : Tpl) (d1 d2 : Datum) : Prop :=
  ∀ inp main g, parseDatum E t inp d1 main g = parseDatum E t inp d2 main g

/-- the two jobs are parsed alike -/
def AlikeJob (E : Engine) (t : Tpl) (j1 j2 : TInput × Datum) : Prop :=
  ∀ main g, parseDatum E t j1.1 j1.2 main g = parseDatum E t j2.1 j2.2 main g

theorem runVarFns_blind (E : Engine) (text : Val) (a b : Str) (fs : Dict Str Str) (vars : Dict Str Val)
    (h : ∀ q ∈ fs, ∀ v a b, E.varFns q.2 v a = E.varFns q.2 v b) : runVarFns E text a fs vars = runVarFns E text b fs vars := by
  induction fs generalizing vars with
  | nil => rfl
  | cons q fs ih =>
    obtain ⟨v, f⟩ := q
    simp only [runVarFns]
    rw [h (v, f) (by simp) text a b]
    cases E.varFns f text b with
    | ok r => exact ih _ (fun q hq => h q (by simp [hq]))
    | error e => exact ih _ (fun q hq => h q (by simp [hq]))

theorem alike_of (E : Engine) (t : Tpl) (d1 d2 : Datum) (v : Val) (a b : Str) (h1 : TTP.dataOf E.world d1 = .ok (v, a))
    (h2 : TTP.dataOf E.world d2 = .ok (v, b)) (h : ∀ q ∈ t.varFns, ∀ v a b, E.varFns q.2 v a = E.varFns q.2 v b) : Alike E t d1 d2 := by
  intro inp main g
  unfold parseDatum
  rw [h1, h2]
  simp only [ok_bind]
  rw [runVarFns_blind E v a b t.varFns t.vars h]

theorem parseDatum_inputs (E : Engine) (t : Tpl) (ins : Dict Str TInput) (i1 i2 : TInput) (d : Datum) (main : Val) (g : Dict Str Val)
    (hg : i1.groups = i2.groups) (hf : i1.functions = i2.functions) :
    parseDatum E { t with inputs := ins } i1 d main g = parseDatum E t i2 d main g := by
  have e : ∀ is, groupsOf { t with inputs := ins } is = groupsOf t is := by
    intro is
    induction is with
    | nil => rfl
    | cons i is ih => simp only [groupsOf, ih]
  unfold parseDatum
  rw [hg, hf]
  simp only [e]

theorem parsePerInput_inputs (E : Engine) (t1 t2 : Tpl) (ins : Dict Str TInput) (j1 j2 : List (TInput × Datum)) (g : Dict Str Val)
    (ht : t2 = { t1 with inputs := ins }) (h : ∀ r, All2 (AlikeJob E { t1 with results := r }) j1 j2) :
    parsePerInput E j2 t2 g = (parsePerInput E j1 t1 g).map (fun q => ({ q.1 with inputs := ins }, q.2)) := by
  subst ht
  induction j1 generalizing j2 t1 g with
  | nil =>
    have := h t1.results
    cases this
    rfl
  | cons a j1 ih =>
    have h' := h t1.results
    cases h' with
    | cons hab hr0 =>
      rename_i b j2
      have hrest : ∀ r, All2 (AlikeJob E { t1 with results := r }) j1 j2 := by
        intro r; cases h r with | cons _ h3 => exact h3
      obtain ⟨i1, d1⟩ := a
      obtain ⟨i2, d2⟩ := b
      simp only [parsePerInput]
      have e : parseDatum E { t1 with inputs := ins } i2 d2 (.dict []) g = parseDatum E t1 i1 d1 (.dict []) g := by
        rw [parseDatum_inputs E t1 ins i2 i2 d2 _ g rfl rfl]; exact (hab _ _).symm
      rw [e]
      cases e1 : parseDatum E t1 i1 d1 (.dict []) g with
      | error x => simp [err_bind]; rfl
      | ok q =>
        obtain ⟨r, g'⟩ := q
        simp only [ok_bind]
        unfold formResults
        cases e2 : formDatum r with
        | error x => simp [err_bind]; rfl
        | ok datum =>
          simp only [ok_bind]
          by_cases hm : t1.method = c!"per_template"
          · simp only [hm, if_true, pure_ok, ok_bind]
            have := ih { t1 with results := datum } j2 g' (fun r => hrest r)
            simp only [hm] at this
            exact this
          · by_cases hm2 : t1.method = c!"per_input"
            · simp only [hm2, if_true, show ¬ (c!"per_input" = c!"per_template") by decide, if_false]
              cases e3 : t1.results with
              | list xs =>
                simp only [pure_ok, ok_bind]
                have := ih { t1 with results := .list (xs ++ [datum]) } j2 g' (fun r => hrest r)
                simp only [hm2] at this
                exact this
              | _ => simp [throw_err, err_bind]; rfl
            · simp only [hm, hm2, if_false, pure_ok, ok_bind]
              exact ih t1 j2 g' hrest

theorem parsePerTemplate_inputs (E : Engine) (t : Tpl) (ins : Dict Str TInput) (j1 j2 : List (TInput × Datum)) (main : Val) (g : Dict Str Val)
    (h : All2 (AlikeJob E t) j1 j2) :
    parsePerTemplate E { t with inputs := ins } j2 main g = parsePerTemplate E t j1 main g := by
  induction h generalizing main g with
  | nil => rfl
  | cons hab hr0 ih =>
    rename_i a b as bs
    obtain ⟨i1, d1⟩ := a
    obtain ⟨i2, d2⟩ := b
    simp only [parsePerTemplate]
    rw [parseDatum_inputs E t ins i2 i2 d2 _ g rfl rfl, ← hab]
    cases parseDatum E t i1 d1 (orDict main) g with
    | error x => rfl
    | ok q => simp only [ok_bind]; exact ih _ _

theorem parseTplOne_inputs (E : Engine) (t : Tpl) (ins : Dict Str TInput) (g : Dict Str Val)
    (h : ∀ r, All2 (AlikeJob E { t with results := r }) (jobsOf t) (jobsOf { t with inputs := ins })) :
    parseTplOne E { t with inputs := ins } g = (parseTplOne E t g).map (fun q => ({ q.1 with inputs := ins }, q.2)) := by
  unfold parseTplOne
  dsimp only
  split
  · exact parsePerInput_inputs E t _ ins _ _ g rfl h
  · split
    · rw [parsePerTemplate_inputs E t ins _ _ _ g (h t.results)]
      cases parsePerTemplate E t (jobsOf t) (.dict []) g with
      | error x => rfl
      | ok q =>
        simp only [ok_bind]
        unfold formResults
        cases formDatum q.1 with
        | error x => rfl
        | ok datum =>
          simp only [ok_bind]
          split
          · rfl
          · split
            · cases t.results <;> rfl
            · rfl
    · rfl

/-- the templates are the same except for data that are parsed alike -/
def AlikeT (E : Engine) (t1 t2 : Tpl) : Prop :=
  t2 = { t1 with inputs := t2.inputs } ∧ ∀ r, All2 (AlikeJob E { t1 with results := r }) (jobsOf t1) (jobsOf t2)

theorem parseAllOne_alike (E : Engine) (ts1 ts2 : List Tpl) (g : Dict Str Val) (h : All2 (AlikeT E) ts1 ts2) :
    (∃ e, parseAllOne E ts1 g = .error e ∧ parseAllOne E ts2 g = .error e) ∨
    ∃ us1 us2 g', parseAllOne E ts1 g = .ok (us1, g') ∧ parseAllOne E ts2 g = .ok (us2, g') ∧
      All2 (fun u1 u2 : Tpl => u2 = { u1 with inputs := u2.inputs }) us1 us2 := by
  induction h generalizing g with
  | nil => exact Or.inr ⟨[], [], g, rfl, rfl, .nil⟩
  | cons hab hr0 ih =>
    rename_i t1 t2 ts1 ts2
    obtain ⟨e, hj⟩ := hab
    simp only [parseAllOne]
    have hp : parseTplOne E t2 g = (parseTplOne E t1 g).map (fun q => ({ q.1 with inputs := t2.inputs }, q.2)) := by
      have := parseTplOne_inputs E t1 t2.inputs g (by rw [← e]; exact hj)
      rw [← e] at this; exact this
    rw [hp]
    cases parseTplOne E t1 g with
    | error x => exact Or.inl ⟨x, rfl, rfl⟩
    | ok q =>
      obtain ⟨u, g1⟩ := q
      simp only [Except.map, ok_bind]
      rcases ih g1 with ⟨x, h1, h2⟩ | ⟨us1, us2, g', h1, h2, h3⟩
      · exact Or.inl ⟨x, by rw [h1]; rfl, by rw [h2]; rfl⟩
      · exact Or.inr ⟨u :: us1, _, g', by rw [h1]; rfl, by rw [h2]; rfl, .cons rfl h3⟩

theorem runOutputs_inputs (E : Engine) (t : Tpl) (ins : Dict Str TInput) :
    runOutputs E { t with inputs := ins } = (runOutputs E t).map (fun t => { t with inputs := ins }) := by
  unfold runOutputs
  dsimp only
  cases runOutputsAux E t.vars t.outputs t.results with
  | error e => rfl
  | ok q => rfl

theorem runOutputsAll_inputs (E : Engine) (ts1 ts2 : List Tpl) (h : All2 (fun u1 u2 : Tpl => u2 = { u1 with inputs := u2.inputs }) ts1 ts2) :
    (∃ e, runOutputsAll E ts1 = .error e ∧ runOutputsAll E ts2 = .error e) ∨
    ∃ us1 us2, runOutputsAll E ts1 = .ok us1 ∧ runOutputsAll E ts2 = .ok us2 ∧
      us1.map (fun t => (t.name, t.results)) = us2.map (fun t => (t.name, t.results)) := by
  induction h with
  | nil => exact Or.inr ⟨[], [], rfl, rfl, rfl⟩
  | cons hab hr0 ih =>
    rename_i t1 t2 ts1 ts2
    simp only [runOutputsAll]
    rw [hab, runOutputs_inputs E t1 t2.inputs]
    cases runOutputs E t1 with
    | error x => exact Or.inl ⟨x, rfl, rfl⟩
    | ok u =>
      simp only [Except.map, ok_bind]
      rcases ih with ⟨x, h1, h2⟩ | ⟨us1, us2, h1, h2, h3⟩
      · exact Or.inl ⟨x, by rw [h1]; rfl, by rw [h2]; rfl⟩
      · exact Or.inr ⟨u :: us1, _, by rw [h1]; rfl, by rw [h2]; rfl, by simp [h3]⟩

theorem parseOne_alike (E : Engine) (o1 o2 : TTPObj) (hg : o2.gvars = o1.gvars) (h : All2 (AlikeT E) o1.templates o2.templates) :
    seen (parseOne E o1) = seen (parseOne E o2) := by
  unfold parseOne
  rw [hg]
  rcases parseAllOne_alike E o1.templates o2.templates o1.gvars h with ⟨e, h1, h2⟩ | ⟨us1, us2, g', h1, h2, h3⟩
  · rw [h1, h2]; rfl
  · rw [h1, h2]
    simp only [ok_bind]
    rcases runOutputsAll_inputs E us1 us2 h3 with ⟨e, h4, h5⟩ | ⟨vs1, vs2, h4, h5, h6⟩
    · rw [h4, h5]; rfl
    · rw [h4, h5]
      simp only [ok_bind, pure_ok, seen, h6]

/-! ### adding data to a new input -/

/-- the object with these data for the input -/
def putData (o : TTPObj) (n tn : Str) (gs : List Str) (ds : List Datum) : TTPObj :=
  { o with templates := o.templates.map (fun t => if selected tn t then
      { t with inputs := Dict.set t.inputs n ⟨ds, inputGroups t.groups n (orAll gs), [], .dict []⟩ } else t) }

theorem loadData_nodup (pre ds : List Datum) (h : (pre ++ ds).Nodup) : loadData pre ds = pre ++ ds := by
  induction ds generalizing pre with
  | nil => simp [loadData]
  | cons d ds ih =>
    have hd : d ∉ pre := by
      rw [List.nodup_append] at h
      intro hm
      exact h.2.2 d hm d (by simp) rfl
    have := ih (pre ++ [d]) (by simpa using h)
    simp only [loadData, List.foldl_cons, if_neg hd] at this ⊢
    rw [this]; simp

theorem addInput_new (E : Engine) (o : TTPObj) (v : Val) (n tn : Str) (gs : List Str) (ds : List Datum) (hl : loadFiles E.world v = ds)
    (hne : ds ≠ []) (hd : ds.Nodup) (hn : NoData o n) : addInput E o v n tn gs = putData o n tn gs ds := by
  unfold addInput putData
  rw [hl]
  dsimp only
  rw [if_neg hne]
  congr 1
  apply List.map_congr_left
  intro t ht
  split
  · unfold updateInput
    dsimp only
    rw [hn t ht]
    dsimp only
    rw [show loadData [] ds = ds from loadData_nodup [] ds hd]
  · rfl

theorem addInput_more (E : Engine) (o : TTPObj) (v : Val) (n tn : Str) (gs : List Str) (pre : List Datum) (d : Datum)
    (hl : loadFiles E.world v = [d]) (hd : d ∉ pre) (hE : Resorts E o) :
    addInput E (putData o n tn gs pre) v n tn gs = putData o n tn gs (pre ++ [d]) := by
  unfold addInput putData
  rw [hl]
  dsimp only
  rw [if_neg (by simp), List.map_map]
  congr 1
  apply List.map_congr_left
  intro t ht
  simp only [Function.comp_apply]
  by_cases hs : selected tn t = true
  · have hs' : selected tn { t with inputs := Dict.set t.inputs n ⟨pre, inputGroups t.groups n (orAll gs), [], .dict []⟩ } = true := hs
    rw [if_pos hs, if_pos hs', if_pos hs]
    unfold updateInput
    dsimp only
    rw [Dict.get?_set_self]
    dsimp only
    rw [Dict.set_set]
    have e1 : E.setOrder (inputGroups t.groups n (orAll gs) ++ inputGroups t.groups n (orAll gs)) = inputGroups t.groups n (orAll gs) := by
      apply hE t ht
      · exact inputGroups_lt _ _ _
      · intro i hi
        rw [mem_inputGroups] at hi
        rcases hi with ⟨g, a, b, _⟩ | ⟨_, g, a, b, _⟩ <;> exact List.mem_map.2 ⟨g, a, b⟩
    rw [e1]
    congr 3
    simp [loadData, hd]
  · rw [if_neg hs, if_neg hs, if_neg hs]

theorem addInputs_new (E : Engine) (o : TTPObj) (n tn : Str) (gs : List Str) (vs : List Str) (ds : List Datum) (hE : Resorts E o) (hn : NoData o n)
    (hl : All2 (fun v d => loadFiles E.world (.str v) = [d]) vs ds) (hd : ds.Nodup) (hne : ds ≠ []) :
    vs.foldl (fun o c => addInput E o (.str c) n tn gs) o = putData o n tn gs ds := by
  have step : ∀ (vs : List Str) (ds pre : List Datum), All2 (fun v d => loadFiles E.world (.str v) = [d]) vs ds → (pre ++ ds).Nodup →
      vs.foldl (fun o c => addInput E o (.str c) n tn gs) (putData o n tn gs pre) = putData o n tn gs (pre ++ ds) := by
    intro vs ds pre h
    induction h generalizing pre with
    | nil => intro _; simp
    | cons h1 h2 ih =>
      intro hnd
      rename_i v d vs ds
      rw [List.foldl_cons, addInput_more E o _ n tn gs pre d h1 (by
        have := hnd
        rw [List.nodup_append] at this
        intro hm
        exact this.2.2 d hm d (by simp) rfl) hE]
      rw [ih (pre ++ [d]) (by simpa using hnd)]
      simp
  cases hl with
  | nil => exact absurd rfl hne
  | cons h1 h2 =>
    rename_i v d vs ds
    rw [List.foldl_cons, addInput_new E o _ n tn gs [d] h1 (by simp) (by simp) hn, step vs ds [d] h2 hd]
    rfl

theorem jobsOf_set (E : Engine) (t : Tpl) (n : Str) (gi : List Nat) (ds1 ds2 : List Datum) (h : All2 (Alike E t) ds1 ds2)
    (ht : Dict.get? t.inputs n = none) :
    All2 (AlikeJob E t) (jobsOf { t with inputs := Dict.set t.inputs n ⟨ds1, gi, [], .dict []⟩ })
      (jobsOf { t with inputs := Dict.set t.inputs n ⟨ds2, gi, [], .dict []⟩ }) := by
  have hnm : n ∉ Dict.keys t.inputs := (Dict.get?_eq_none_iff _ _).1 ht
  unfold jobsOf
  dsimp only
  rw [Dict.set_of_not_mem _ _ _ hnm, Dict.set_of_not_mem _ _ _ hnm]
  simp only [List.map_append, List.flatten_append, List.map_cons, List.map_nil, List.flatten_cons, List.flatten_nil, List.append_nil]
  apply All2_append'
  · exact All2_refl' (fun a main g => rfl) _
  · apply All2_map
    induction h with
    | nil => exact .nil
    | cons h1 _ ih =>
      refine .cons ?_ ih
      intro main g
      have := h1 ⟨[], gi, [], .dict []⟩ main g
      have e : ∀ ds d, parseDatum E t ⟨ds, gi, [], .dict []⟩ d main g = parseDatum E t ⟨[], gi, [], .dict []⟩ d main g := fun ds d =>
        parseDatum_inputs E t t.inputs _ _ d main g rfl rfl
      dsimp only
      rw [e, e]; exact this

theorem putData_alike (E : Engine) (o : TTPObj) (n tn : Str) (gs : List Str) (ds1 ds2 : List Datum) (hn : NoData o n)
    (h : ∀ t ∈ o.templates, ∀ r, All2 (Alike E { t with results := r }) ds1 ds2) :
    seen (parseOne E (putData o n tn gs ds1)) = seen (parseOne E (putData o n tn gs ds2)) := by
  apply parseOne_alike
  · rfl
  · unfold putData
    dsimp only
    have : ∀ ts : List Tpl, (∀ t ∈ ts, t ∈ o.templates) → All2 (AlikeT E)
        (ts.map (fun t => if selected tn t then
          { t with inputs := Dict.set t.inputs n ⟨ds1, inputGroups t.groups n (orAll gs), [], .dict []⟩ } else t))
        (ts.map (fun t => if selected tn t then
          { t with inputs := Dict.set t.inputs n ⟨ds2, inputGroups t.groups n (orAll gs), [], .dict []⟩ } else t)) := by
      intro ts hts
      induction ts with
      | nil => exact .nil
      | cons t ts ih =>
        refine .cons ?_ (ih (fun t ht => hts t (by simp [ht])))
        have ht := hts t (by simp)
        dsimp only
        by_cases hs : selected tn t = true
        · rw [if_pos hs, if_pos hs]
          refine ⟨rfl, ?_⟩
          intro r
          have := jobsOf_set E { t with results := r } n (inputGroups t.groups n (orAll gs)) ds1 ds2 (h t ht r) (hn t ht)
          have e : ∀ (ins : Dict Str TInput) (a b : TInput × Datum), AlikeJob E { t with results := r } a b →
              AlikeJob E { { t with inputs := ins } with results := r } a b := by
            intro ins a b hab main g
            have e2 : ∀ j : TInput × Datum, parseDatum E { { t with inputs := ins } with results := r } j.1 j.2 main g =
                parseDatum E { t with results := r } j.1 j.2 main g := fun j =>
              parseDatum_inputs E { t with results := r } ins j.1 j.1 j.2 main g rfl rfl
            rw [e2, e2]; exact hab main g
          have mono : ∀ (as bs : List (TInput × Datum)) (ins : Dict Str TInput), All2 (AlikeJob E { t with results := r }) as bs →
              All2 (AlikeJob E { { t with inputs := ins } with results := r }) as bs := by
            intro as bs ins hh
            induction hh with
            | nil => exact .nil
            | cons h1 _ ih2 => exact .cons (e ins _ _ h1) ih2
          exact mono _ _ _ this
        · rw [if_neg hs, if_neg hs]
          exact ⟨rfl, fun r => All2_refl' (fun a main g => rfl) _⟩
    exact this o.templates (fun t ht => ht)

/-! ### what a path names -/

theorem loadFiles_names {w : World} {p : Str} {fs : List Str} (h : NamesFiles w p fs) :
    loadFiles w (.str p) = fs.map (fun f => (⟨.file, .str f⟩ : Datum)) := by
  unfold loadFiles
  dsimp only
  cases h with
  | file h1 h2 => simp [not_prefix_startsWith _ _ h1, h2]
  | shared h1 h2 h3 h4 h5 =>
    rename_i d
    have h5' : w.isFile (pathJoin d (p.take 5000)) = true := h5
    have h4' : d.isEmpty = false := by cases d <;> simp_all
    simp [not_prefix_startsWith _ _ h1, h2, h3, h4', h5']
    rfl
  | dir h1 h2 h3 h4 =>
    have e : ((w.listdir p).filter (fun f => w.isFile (pathJoin p f))).map (fun f => (⟨.file, .str (pathJoin p f)⟩ : Datum)) =
        (((w.listdir p).map (fun f => p ++ '/' :: f)).filter (fun f => w.isFile f)).map (fun f => (⟨.file, .str f⟩ : Datum)) := by
      rw [List.filter_map, List.map_map]; rfl
    rw [not_prefix_startsWith _ _ h1, h2]
    simp only [Bool.false_eq_true, if_false]
    cases ht : w.templatesDir with
    | none => simp only [h4, if_true]; exact e
    | some d =>
      have : (!d.isEmpty && w.isFile (pathJoin d (p.take 5000))) = false := by
        rcases h3 d ht with e | e
        · subst e; rfl
        · have e' : w.isFile (pathJoin d (p.take 5000)) = false := e
          rw [e']; simp
      simp only [this, Bool.false_eq_true, if_false, h4, if_true]
      exact e

theorem dataOf_file {w : World} {f c : Str} (h : FileText w f c) : TTP.dataOf w ⟨.file, .str f⟩ = .ok (.str (dataText c), f) := by
  simp [TTP.dataOf, loadRead_file h, ok_bind, pure_ok]

theorem loadRead_notpath {w : World} {s : Str} (h : NotAPath w s) : loadRead w s = .ok [s] := by
  obtain ⟨h1, h2, h3, h4⟩ := h
  unfold loadRead
  rw [not_prefix_startsWith _ _ h1, h2]
  simp only [Bool.false_eq_true, if_false]
  cases ht : w.templatesDir with
  | none => simp [h3, pure_ok]
  | some d =>
    have : (!d.isEmpty && w.isFile (pathJoin d (s.take 5000))) = false := by
      rcases h4 d ht with e | e
      · subst e; rfl
      · have e' : w.isFile (pathJoin d (s.take 5000)) = false := e
        rw [e']; simp
    simp [this, h3, pure_ok]

end Props
