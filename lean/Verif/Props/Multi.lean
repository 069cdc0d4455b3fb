import Verif.Proofs.Multi
import Verif.Props.Object
/-!
# C35-C38: parsing in several processes

A schedule is a run of the transition system `Step`: at each point any process or feeder thread that can move may move.
-/

namespace Props
open Py Spec TTP

/-! ## C35 -/

/-- C35. If parsing the data of a `per_input` template in one process succeeds, then with any number of workers, under every
schedule, a finished parse in several processes appends the same entries in some order, and nothing else changes. -/
theorem C35_multi_same_entries (E : Engine) (hE : E.KeepsGlobals) (t t1 t2 : Tpl) (g : Dict Str Val) (n : Nat)
    (hm : t.method = c!"per_input") (xs : List Val) (hr : t.results = .list xs)
    (h1 : parseTplOne E t [] = .ok (t1, g)) (h2 : MultiParsed E n t t2) :
    ∃ es es', t1 = { t with results := .list (xs ++ es) } ∧ t2 = { t with results := .list (xs ++ es') } ∧
      es'.Perm es ∧ es.length = (t.inputs.flatMap (fun i => i.2.data)).length := by
  obtain ⟨es, he, rfl⟩ := (parseTplOne_input E t t1 [] g hm xs hr).1 h1
  obtain ⟨e1, e2, e3⟩ := each_solo E hE t _ _ _ he
  obtain ⟨k, s, hs, hf, hc⟩ := h2
  have hp : ∀ j ∈ jobsOf t, ∀ g, g = [] → ∃ g', workerParse E t j g = .ok (soloR E t j, g') ∧ g' = [] := by
    rintro j hj g rfl
    exact ⟨[], e2 j hj, rfl⟩
  have hg := run_got (workerParse E t) (jobsOf t) n [] (soloR E t) (fun g => g = []) rfl hp k s hs hf
  rw [collect_input t s.got formOf ?_ hm xs hr, Except.ok.injEq] at hc
  · refine ⟨es, s.got.map formOf, rfl, hc.symm, ?_, ?_⟩
    · rw [e1]; exact hg.map _
    · rw [EachOf_length E t _ _ _ _ he]
      simp [jobsOf, List.length_flatten, List.length_flatMap, List.map_map, Function.comp_def]
  · intro r hr
    have := hg.subset hr
    simp only [List.mem_map] at this
    obtain ⟨j, hj, rfl⟩ := this
    exact e3 j hj

/-- C35, C38. Under the same hypothesis every schedule comes to its end: it has at most `7 * (items + workers) + 1` steps, as
long as results are to be collected some process can move, and a finished parse exists. -/
theorem C35_multi_always_finishes (E : Engine) (hE : E.KeepsGlobals) (t t1 : Tpl) (g : Dict Str Val) (n : Nat) (hn : 0 < n)
    (hm : t.method = c!"per_input") (xs : List Val) (hr : t.results = .list xs)
    (h1 : parseTplOne E t [] = .ok (t1, g)) :
    (∀ k s, Steps (workerParse E t) (jobsOf t).length k (Sys.init (jobsOf t) n []) s →
      k ≤ 7 * ((jobsOf t).length + n) + 1 ∧
      (s.Finished (jobsOf t).length ∨ ∃ s', Step (workerParse E t) (jobsOf t).length s s')) ∧
    ∃ t2, MultiParsed E n t t2 := by
  obtain ⟨es, he, rfl⟩ := (parseTplOne_input E t t1 [] g hm xs hr).1 h1
  obtain ⟨e1, e2, e3⟩ := each_solo E hE t _ _ _ he
  have hp : ∀ j ∈ jobsOf t, ∀ g, g = [] → ∃ g', workerParse E t j g = .ok (soloR E t j, g') ∧ g' = [] := by
    rintro j hj g rfl
    exact ⟨[], e2 j hj, rfl⟩
  refine ⟨?_, ?_⟩
  · intro k s hs
    obtain ⟨hq, hj⟩ := run_inv (workerParse E t) (jobsOf t) n [] (soloR E t) (fun g => g = []) rfl hp k s hs
    refine ⟨?_, ?_⟩
    · have := measure_steps _ _ k _ _ hs
      rw [measure_init] at this
      omega
    · by_cases hf : s.Finished (jobsOf t).length
      · exact Or.inl hf
      · exact Or.inr (progress _ n hn _ _ _ hp s hq hj hf)
  · obtain ⟨k, s, hs, hf⟩ := run_exists (workerParse E t) (jobsOf t) n hn (soloR E t) (fun g => g = []) hp _
      (Sys.init (jobsOf t) n []) (Nat.le_refl _) (QInv_init _ n []) (JInv_init _ _ _ n [] rfl) 0 _ (.refl _)
    have hg := run_got (workerParse E t) (jobsOf t) n [] (soloR E t) (fun g => g = []) rfl hp k s hs hf
    refine ⟨_, k, s, hs, hf, collect_input t s.got formOf ?_ hm xs hr⟩
    intro r hr
    have := hg.subset hr
    simp only [List.mem_map] at this
    obtain ⟨j, hj, rfl⟩ := this
    exact e3 j hj

theorem eng0_keeps : Ex.eng0.KeepsGlobals := by
  refine ⟨?_, ?_⟩
  · intro f env v env' v' fl h
    simp [Ex.eng0, Ex.mf0, pure_ok] at h
    rw [h.1]
  · intro f ms v ms' v' fl h
    simp [Ex.eng0, Ex.gf0, pure_ok] at h
    rw [h.1]

/-- the hypotheses are met by a template with two data items, whose entries differ -/
example : Ex.eng0.KeepsGlobals ∧ Ex.tplC.method = c!"per_input" ∧ Ex.tplC.results = .list [] ∧ (jobsOf Ex.tplC).length = 2 ∧
    (∃ t1 g, parseTplOne Ex.eng0 Ex.tplC [] = .ok (t1, g) ∧ ∃ t2, MultiParsed Ex.eng0 3 Ex.tplC t2) := by
  refine ⟨eng0_keeps, rfl, rfl, rfl, ?_⟩
  have : (parseTplOne Ex.eng0 Ex.tplC []).toOption.isSome = true := by decide +kernel
  cases h : parseTplOne Ex.eng0 Ex.tplC [] with
  | error e => rw [h] at this; cases this
  | ok p => exact ⟨p.1, p.2, rfl, (C35_multi_always_finishes Ex.eng0 eng0_keeps Ex.tplC p.1 p.2 3 (by omega) rfl [] rfl h).2⟩

/-! ## C36 -/

/-- C36, in part: for a `per_template` template with exactly one data item several processes store what one process stores. -/
theorem C36_single_item_partial (E : Engine) (hE : E.KeepsGlobals) (t t1 t2 : Tpl) (g : Dict Str Val) (n : Nat)
    (hm : t.method = c!"per_template") (j : TInput × Datum) (hj : jobsOf t = [j])
    (h1 : parseTplOne E t [] = .ok (t1, g)) (h2 : MultiParsed E n t t2) : t2 = t1 := by
  obtain ⟨w, e, hc, hfe, rfl⟩ := (parseTplOne_template E t t1 [] g hm).1 h1
  rw [hj] at hc
  obtain ⟨inp, d⟩ := j
  cases hc with
  | cons hp hc =>
    cases hc
    rw [show (if (Val.dict []).truthy = true then Val.dict [] else Val.dict []) = Val.dict [] by split <;> rfl] at hp
    have hg := parseDatum_gvars E hE t inp d _ _ _ _ hp
    subst hg
    obtain ⟨k, s, hs, hf, hcr⟩ := h2
    have hpp : ∀ j ∈ jobsOf t, ∀ g, g = [] → ∃ g', workerParse E t j g = .ok (w, g') ∧ g' = [] := by
      rintro j hj' g rfl
      rw [hj, List.mem_singleton] at hj'
      subst hj'
      exact ⟨[], hp, rfl⟩
    have hgot := run_got (workerParse E t) (jobsOf t) n [] (fun _ => w) (fun g => g = []) rfl hpp k s hs hf
    rw [hj] at hgot
    simp only [List.map_cons, List.map_nil, List.perm_singleton] at hgot
    rw [hgot, collect_template t [w] (fun _ => e) (by simp [hfe]) hm] at hcr
    simpa using hcr.symm

/-- C36 fails for more data items: with any number of workers and under every schedule, what is stored is what one of the data
items gives when it is parsed alone (so the results of all the others are lost). -/
theorem C36_only_one_item_survives (E : Engine) (hE : E.KeepsGlobals) (t t2 : Tpl) (n : Nat) (hm : t.method = c!"per_template")
    (hne : jobsOf t ≠ []) (hall : ∀ j ∈ jobsOf t, ∃ r e g, parseDatum E t j.1 j.2 (.dict []) [] = .ok (r, g) ∧ formDatum r = .ok e)
    (h2 : MultiParsed E n t t2) :
    ∃ j ∈ jobsOf t, ∃ r e g, parseDatum E t j.1 j.2 (.dict []) [] = .ok (r, g) ∧ formDatum r = .ok e ∧
      t2 = { t with results := e } := by
  obtain ⟨k, s, hs, hf, hcr⟩ := h2
  have hsolo : ∀ j ∈ jobsOf t, parseDatum E t j.1 j.2 (.dict []) [] = .ok (soloR E t j, []) ∧
      formDatum (soloR E t j) = .ok (formOf (soloR E t j)) := by
    intro j hj
    obtain ⟨r, e, g, a, b⟩ := hall j hj
    have := parseDatum_gvars E hE t _ _ _ _ _ _ a
    subst this
    have e1 : soloR E t j = r := by simp [soloR, a]
    rw [e1]
    exact ⟨a, by simp [formOf, b]⟩
  have hp : ∀ j ∈ jobsOf t, ∀ g, g = [] → ∃ g', workerParse E t j g = .ok (soloR E t j, g') ∧ g' = [] := by
    rintro j hj g rfl
    exact ⟨[], (hsolo j hj).1, rfl⟩
  have hg := run_got (workerParse E t) (jobsOf t) n [] (soloR E t) (fun g => g = []) rfl hp k s hs hf
  have hform : ∀ r ∈ s.got, ∃ j ∈ jobsOf t, r = soloR E t j := by
    intro r hr
    have := hg.subset hr
    simp only [List.mem_map] at this
    obtain ⟨j, hj, rfl⟩ := this
    exact ⟨j, hj, rfl⟩
  rw [collect_template t s.got formOf ?_ hm, Except.ok.injEq] at hcr
  · cases hl : s.got.getLast? with
    | none =>
      rw [List.getLast?_eq_none_iff] at hl
      rw [hl] at hg
      have := hg.length_eq
      simp at this
      exact absurd (List.eq_nil_of_length_eq_zero this.symm) hne
    | some r =>
      rw [hl] at hcr
      obtain ⟨j, hj, rfl⟩ := hform r (List.mem_of_getLast? hl)
      exact ⟨j, hj, _, _, _, (hsolo j hj).1, (hsolo j hj).2, hcr.symm⟩
  · intro r hr
    obtain ⟨j, hj, rfl⟩ := hform r hr
    exact (hsolo j hj).2

/-- the template of two data items with combined results -/
def Ex.tplT : Tpl := { Ex.tplC with method := c!"per_template" }

/-- C36 is false: a template with two data items; a parse in several processes finishes, and never stores what one process
stores. -/
theorem C36_multi_differs (n : Nat) (t2 : Tpl) (h : MultiParsed Ex.eng0 n Ex.tplT t2) :
    Ex.resultsOf (parseOne Ex.eng0 ⟨[Ex.tplT], [], [], []⟩) ≠ some [t2.results] := by
  have e1 : Ex.resultsOf (parseOne Ex.eng0 ⟨[Ex.tplT], [], [], []⟩) =
      some [.dict [(.s c!"interfaces", .list [.dict [(.s c!"name", .str c!"a"), (.s c!"mtu", .str c!"1500")],
        .dict [(.s c!"name", .str c!"b"), (.s c!"mtu", .str c!"1500")]])]] := by decide +kernel
  have ho : ∀ j ∈ jobsOf Ex.tplT, (parseDatum Ex.eng0 Ex.tplT j.1 j.2 (.dict []) []).toOption.map (fun p => formDatum p.1 |>.toOption) =
        some (some (.dict [(.s c!"interfaces", .list [.dict [(.s c!"name", .str c!"a"), (.s c!"mtu", .str c!"1500")]])])) ∨
      (parseDatum Ex.eng0 Ex.tplT j.1 j.2 (.dict []) []).toOption.map (fun p => formDatum p.1 |>.toOption) =
        some (some (.dict [(.s c!"interfaces", .list [.dict [(.s c!"name", .str c!"b"), (.s c!"mtu", .str c!"1500")]])])) := by
    decide +kernel
  have hok : ∀ j ∈ jobsOf Ex.tplT, ∃ r e g, parseDatum Ex.eng0 Ex.tplT j.1 j.2 (.dict []) [] = .ok (r, g) ∧ formDatum r = .ok e := by
    intro j hj
    have h0 : ∃ v, (parseDatum Ex.eng0 Ex.tplT j.1 j.2 (.dict []) []).toOption.map (fun p => formDatum p.1 |>.toOption) = some (some v) := by
      rcases ho j hj with h | h
      · exact ⟨_, h⟩
      · exact ⟨_, h⟩
    obtain ⟨v, hv⟩ := h0
    cases hp : parseDatum Ex.eng0 Ex.tplT j.1 j.2 (.dict []) [] with
    | error e => rw [hp] at hv; simp [Except.toOption] at hv
    | ok p =>
      rw [hp] at hv
      cases hf : formDatum p.1 with
      | error e => simp [Except.toOption, hf] at hv
      | ok e => exact ⟨p.1, e, p.2, rfl, hf⟩
  obtain ⟨j, hj, r, e, g, h1, h2, rfl⟩ := C36_only_one_item_survives Ex.eng0 eng0_keeps Ex.tplT t2 n rfl (by decide +kernel) hok h
  rw [e1]
  have := ho j hj
  rw [h1] at this
  simp only [Except.toOption, h2, Option.map_some, Option.some.injEq] at this
  intro hcon
  simp only [Option.some.injEq, List.cons.injEq, and_true] at hcon
  rw [← hcon] at this
  revert this
  decide +kernel

/-! ## C37 -/

/-- C37. What a worker finds under a scope and name: in a scope with custom functions only these, otherwise the built-in ones. -/
theorem C37_worker_functions {F : Type} (base custom : FnTable F) (hc : Dict.WF custom) (scope name : Str) :
    (workerTable base custom).find scope name =
      match Dict.get? custom scope with
      | some fs => Dict.get? fs name
      | none => base.find scope name := by
  unfold FnTable.find workerTable
  rw [Dict.get?_update _ _ hc]
  cases h : Dict.get? custom scope <;> simp

/-- C37. A function added by `add_function` is found afterwards both in the main process and in a worker, under its scope and
name; in the main process all other functions stay as they were. -/
theorem C37_custom_found {F : Type} (base table custom : FnTable F) (hc : Dict.WF custom) (scope name : Str) (f : F)
    (table' custom' : FnTable F) (h : addFunction table custom scope name f = .ok (table', custom')) :
    table'.find scope name = some f ∧ (workerTable base custom').find scope name = some f ∧
    ∀ s n, (s ≠ scope ∨ n ≠ name) → table'.find s n = table.find s n := by
  unfold addFunction at h
  split at h
  · cases h
  · rename_i fs hfs
    simp only [pure_ok, Except.ok.injEq, Prod.mk.injEq] at h
    obtain ⟨rfl, rfl⟩ := h
    refine ⟨?_, ?_, ?_⟩
    · simp [FnTable.find, Dict.get?_set_self]
    · rw [C37_worker_functions _ _ (Dict.WF_set _ _ _ hc), Dict.get?_set_self]
      simp [Dict.get?_set_self]
    · intro s n hne
      unfold FnTable.find
      by_cases hs : scope = s
      · subst hs
        have hn : name ≠ n := by
          rcases hne with h | h
          · exact absurd rfl h
          · exact fun e => h e.symm
        rw [Dict.get?_set_self, hfs]
        simp [Dict.get?_set_ne _ _ hn]
      · rw [Dict.get?_set_ne _ _ hs]

/-- C37, in part: a scope to which no function was added has in the workers all its functions. -/
theorem C37_other_scopes_partial {F : Type} (base custom : FnTable F) (hc : Dict.WF custom) (scope name : Str)
    (h : Dict.get? custom scope = none) : (workerTable base custom).find scope name = base.find scope name := by
  rw [C37_worker_functions base custom hc, h]

/-- C37 is false: after `add_function` of one function to `match`, the built-in functions of `match` are still there for one
process but none of them in a worker. -/
theorem C37_custom_hides_builtins {F : Type} (base : FnTable F) (scope name : Str) (f : F) (table' custom' : FnTable F)
    (h : addFunction base [] scope name f = .ok (table', custom')) (b : Str) (hb : b ≠ name) :
    table'.find scope b = base.find scope b ∧ (workerTable base custom').find scope b = none := by
  refine ⟨(C37_custom_found base base [] (by simp [Dict.WF, Dict.keys]) scope name f table' custom' h).2.2 scope b (Or.inr hb), ?_⟩
  unfold addFunction at h
  split at h
  · cases h
  · simp only [pure_ok, Except.ok.injEq, Prod.mk.injEq] at h
    obtain ⟨_, rfl⟩ := h
    rw [C37_worker_functions _ _ (Dict.WF_set _ _ _ (by simp [Dict.WF, Dict.keys])), Dict.get?_set_self]
    simp [Dict.get?, Dict.set, Ne.symm hb]

/-- the hypotheses are met, with a built-in function that disappears -/
example : (∃ t c, addFunction [(c!"match", [(c!"upper", 1)])] [] c!"match" c!"mine" 2 = .ok (t, c)) ∧
    FnTable.find [(c!"match", [(c!"upper", 1)])] c!"match" c!"upper" = some 1 := ⟨⟨_, _, rfl⟩, rfl⟩

/-! ## C38 -/

/-- C38, in part: when no data item makes parsing raise, whatever was parsed before it, every schedule ends: it has at most
`7 * (items + workers) + 1` steps, and as long as not all results are collected some process can move. Missing: data on which
parsing raises, see `C38_raising_item_hangs`. -/
theorem C38_always_finishes_partial {J R G : Type} (parse : J → G → PyM (R × G)) (jobs : List J) (n : Nat) (hn : 0 < n) (g0 : G)
    (r : J → R) (hp : ∀ j ∈ jobs, ∀ g, ∃ g', parse j g = .ok (r j, g')) :
    (∀ k s, Steps parse jobs.length k (Sys.init jobs n g0) s →
      k ≤ 7 * (jobs.length + n) + 1 ∧ (s.Finished jobs.length ∨ ∃ s', Step parse jobs.length s s')) ∧
    (∃ k s, Steps parse jobs.length k (Sys.init jobs n g0) s ∧ s.Finished jobs.length) := by
  have hp' : ∀ j ∈ jobs, ∀ g, True → ∃ g', parse j g = .ok (r j, g') ∧ True :=
    fun j hj g _ => let ⟨g', h⟩ := hp j hj g; ⟨g', h, trivial⟩
  refine ⟨?_, ?_⟩
  · intro k s hs
    obtain ⟨hq, hj⟩ := run_inv parse jobs n g0 r (fun _ => True) trivial hp' k s hs
    refine ⟨?_, ?_⟩
    · have := measure_steps _ _ k _ _ hs
      rw [measure_init] at this
      omega
    · by_cases hf : s.Finished jobs.length
      · exact Or.inl hf
      · exact Or.inr (progress _ n hn _ _ _ hp' s hq hj hf)
  · exact run_exists parse jobs n hn r (fun _ => True) hp' _
      (Sys.init jobs n g0) (Nat.le_refl _) (QInv_init _ n g0) (JInv_init _ _ _ n g0 trivial) 0 _ (.refl _)

/-- C38 is false: if parsing raises on one of the data items, `tasks.join()` never returns, under no schedule, with any number
of workers, and so `parse(multi=True)` never finishes. -/
theorem C38_raising_item_hangs {J R G : Type} (parse : J → G → PyM (R × G)) (jobs : List J) (n : Nat) (g0 : G)
    (j : J) (hj : j ∈ jobs) (hbad : ∀ g, ∃ e, parse j g = .error e) (k : Nat) (s : Sys J R G)
    (h : Steps parse jobs.length k (Sys.init jobs n g0) s) : s.joined = false ∧ ¬ s.Finished jobs.length := by
  have key := inv_steps parse jobs.length k (fun s => QInv n s ∧ BInv (fun i => i = j) s)
    (fun s t hst hs => ⟨QInv_step parse _ n s t hst hs.1, BInv_step parse _ n (fun i => i = j)
      (fun i hi g => by rw [hi]; exact hbad g) s t hst hs.1 hs.2⟩) _ _ h
    ⟨QInv_init jobs n g0, BInv_init jobs n g0 (fun i => i = j) j hj rfl⟩
  refine ⟨key.2.waiting, ?_⟩
  rintro ⟨h1, _⟩
  rw [key.2.waiting] at h1
  cases h1

/-- and such a run does get stuck: it has at most `7 * (items + workers) + 1` steps (the same for all runs) -/
theorem C38_runs_bounded {J R G : Type} (parse : J → G → PyM (R × G)) (jobs : List J) (n : Nat) (g0 : G) (k : Nat) (s : Sys J R G)
    (h : Steps parse jobs.length k (Sys.init jobs n g0) s) : k ≤ 7 * (jobs.length + n) + 1 := by
  have := measure_steps _ _ k _ _ h
  rw [measure_init] at this
  omega

/-- The hypothesis is met: a template whose data item is a number, which no worker can parse. -/
example : ∀ g, ∃ e, workerParse Ex.eng0 Ex.tplC (⟨[], [0], [], .dict []⟩, ⟨.text, .int 5⟩) g = .error e := fun _ => ⟨_, rfl⟩

end Props
