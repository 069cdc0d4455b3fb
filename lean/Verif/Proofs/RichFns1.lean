import Verif.Spec.RichFns
import Verif.Proofs.Rich6
/-!
# Lemmas: the results machine on a flat group with functions
-/

namespace TTP
open Py Spec

/-- a machine with these defaults and variables -/
def someMS (dflt : Dict Key Val) (env : Env) : MS := ⟨.none, [], [], ⟨[], [], [], dflt, none, false⟩, [], env.vars, env.gvars⟩

theorem gjudged_det {gf : GroupFns} {dflt : Dict Key Val} {env : Env} {fs : List FnCall} {r : Dict Key Val} {a b : Option (Dict Key Val)}
    (ha : GJudged gf dflt env fs r a) (hb : GJudged gf dflt env fs r b) : a = b := by
  induction ha generalizing b with
  | done _ _ => cases hb; rfl
  | go h _ ih =>
    obtain ⟨fl, h1, hf⟩ := h (someMS dflt env) rfl rfl rfl
    cases hb with
    | go h' hb' =>
      obtain ⟨fl', h2, _⟩ := h' (someMS dflt env) rfl rfl rfl
      rw [h1] at h2
      simp only [Except.ok.injEq, Prod.mk.injEq, Val.dict.injEq, true_and] at h2
      rw [← h2.1] at hb'
      exact ih hb'
    | no h' =>
      obtain ⟨w, h2⟩ := h' (someMS dflt env) rfl rfl rfl
      rw [h1] at h2
      simp only [Except.ok.injEq, Prod.mk.injEq, true_and] at h2
      exact absurd h2.2 hf
  | no h =>
    obtain ⟨w, h1⟩ := h (someMS dflt env) rfl rfl rfl
    cases hb with
    | go h' _ =>
      obtain ⟨fl', h2, hf⟩ := h' (someMS dflt env) rfl rfl rfl
      rw [h1] at h2
      simp only [Except.ok.injEq, Prod.mk.injEq, true_and] at h2
      exact absurd h2.2.symm hf
    | no _ => rfl

theorem gjudged_ok {gf : GroupFns} {dflt : Dict Key Val} {env : Env} {fs : List FnCall} {r o : Dict Key Val}
    (h : GJudged gf dflt env fs r (some o)) : o ≠ [] ∧ Dict.WF o := by
  generalize ho : some o = out at h
  induction h with
  | done h1 h2 => cases ho; exact ⟨h1, h2⟩
  | go _ _ ih => exact ih ho
  | no _ => cases ho

open Classical in
/-- what is left of the record -/
noncomputable def keptOf (gf : GroupFns) (dflt : Dict Key Val) (env : Env) (fs : List FnCall) (r : Dict Key Val) : Option (Dict Key Val) :=
  if h : ∃ out, GJudged gf dflt env fs r out then h.choose else none

theorem keptOf_eq {gf : GroupFns} {dflt : Dict Key Val} {env : Env} {fs : List FnCall} {r : Dict Key Val} {out : Option (Dict Key Val)}
    (h : GJudged gf dflt env fs r out) : keptOf gf dflt env fs r = out := by
  have he : ∃ out, GJudged gf dflt env fs r out := ⟨out, h⟩
  unfold keptOf
  rw [dif_pos he]
  exact gjudged_det he.choose_spec h

theorem runFns_judged {gf : GroupFns} {dflt : Dict Key Val} {env : Env} {fs : List FnCall} {r : Dict Key Val} {out : Option (Dict Key Val)}
    (h : GJudged gf dflt env fs r out) (ms : MS) (h1 : ms.record.defaults = dflt) (h2 : ms.vars = env.vars) (h3 : ms.gvars = env.gvars) :
    runFns gf fs ms (.dict r) = .ok (ms, out.map .dict) := by
  induction h with
  | done _ _ => rfl
  | go h _ ih =>
    obtain ⟨fl, e, hf⟩ := h ms h1 h2 h3
    simp only [runFns, e, ok_bind]
    rw [if_neg hf]
    exact ih
  | no h =>
    obtain ⟨w, e⟩ := h ms h1 h2 h3
    simp only [runFns, e, ok_bind, if_true, pure_ok, Option.map_none]

/-- the current record of the machine -/
def recF (g : GId) (path : List Str) (dflt : Dict Key Val) (fs : List FnCall) : Option (Dict Key Val) → Record
  | none => Record.empty
  | some r => ⟨r, path, fs, dflt, some g, false⟩

theorem flush_fns (ti : Bool) (gf : GroupFns) (g : GId) (path : List Str) (hs : StaticPath path) (hne : path ≠ [])
    (dflt : Dict Key Val) (env : Env) (fs : List FnCall) (ms : MS) (cur : Option (Dict Key Val))
    (hv : ms.vars = env.vars) (hg : ms.gvars = env.gvars)
    (hj : ∀ r ∈ cur.toList.map (fun r => addDefaults r dflt), ∃ out, GJudged gf dflt env fs r out)
    (hrec : ms.record = recF g path dflt fs cur) :
    flush ti gf ms = (((cur.toList.map (fun r => addDefaults r dflt)).filterMap (keptOf gf dflt env fs)).foldlM
      (fun R r => save ti false (.dict r) (parsePath path) R) ms.results >>= fun R => pure { ms with results := R }) := by
  cases cur with
  | none =>
    simp only [recF] at hrec
    rw [flush_empty ti gf ms hrec]
    simp
  | some r =>
    simp only [recF] at hrec
    obtain ⟨out, ho⟩ := hj (addDefaults r dflt) (by simp)
    have hk := keptOf_eq ho
    have hrun := runFns_judged ho ms (by rw [hrec]) hv hg
    have hp : processgrp ti gf ms = .ok (ms, out.map (fun o => (.dict o, parsePath path))) := by
      unfold processgrp preMerge
      rw [hrec]
      simp only [Bool.false_eq_true, if_false, pure_ok, ok_bind]
      have e1 : ms.record.functions = fs := by rw [hrec]
      rw [e1, hrun, ok_bind]
      cases out with
      | none => rfl
      | some o =>
        simp only [Option.map_some, postPath]
        have e2 : ms.record.path = path := by rw [hrec]
        rw [e2, formPath_static ms.vars path hs ms.dynCache (.dict o)]
        obtain ⟨p, ps, rfl⟩ := List.exists_cons_of_ne_nil hne
        simp only [ok_bind, parsePath, List.map_cons]
        rfl
    simp only [flush, hp, ok_bind, Option.toList_some, List.map_cons, List.map_nil, List.filterMap_cons, hk, List.filterMap_nil]
    cases out with
    | none => rfl
    | some o =>
      have e3 : ms.record.merge = false := by rw [hrec]
      simp only [Option.map_some, e3, List.foldlM_cons, List.foldlM_nil]
      cases save ti false (.dict o) (parsePath path) ms.results <;> rfl

/-- as `OfGroupE`, with functions -/
structure OfGroupF (g : GId) (path : List Str) (dflt : Dict Key Val) (fs : List FnCall) (h : Hit) : Prop where
  gid : h.1.gid = g
  parent : h.1.parent = none
  path : h.1.path = path
  runs : h.1.runs = dflt
  funcs : h.1.funcs = fs
  action : h.1.action.isStart = true ∨ ((h.1.action = .add ∨ h.1.action = .end_) ∧ h.2 ≠ none)
  wf : ∀ d, h.2 = some d → Dict.WF d

/-- as `FlatInv`, with functions -/
structure FlatInvF (g : GId) (path : List Str) (dflt : Dict Key Val) (env : Env) (fs : List FnCall) (ms : MS) (cur : Option (Dict Key Val))
    (dead : Bool) : Prop where
  record : ms.record = recF g path dflt fs cur
  started : cur = none → ms.started = []
  ended : g ∈ ms.ended ↔ dead = true
  vars : ms.vars = env.vars
  gvars : ms.gvars = env.gvars

theorem flat_simF (ti : Bool) (gf : GroupFns) (g : GId) (path : List Str) (hs : StaticPath path) (hne : path ≠ [])
    (dflt : Dict Key Val) (env : Env) (fs : List FnCall) (hits : List Hit) (hof : ∀ h ∈ hits, OfGroupF g path dflt fs h)
    (ms : MS) (cur : Option (Dict Key Val)) (dead : Bool) (hinv : FlatInvF g path dflt env fs ms cur dead)
    (hj : ∀ r ∈ recsOf dflt cur dead (hits.map evOfE), ∃ out, GJudged gf dflt env fs r out)
    (hready : cur ≠ none ∨ dead = true ∨ ∀ h ∈ hits.head?, h.1.action.isStart = true) :
    ((steps ti gf ms (hits.map ([·])) >>= flush ti gf).map seen) =
      (((recsOf dflt cur dead (hits.map evOfE)).filterMap (keptOf gf dflt env fs)).foldlM (fun R r => save ti false (.dict r) (parsePath path) R) ms.results).map
        (fun R => (R, ms.vars, ms.gvars)) := by
  induction hits generalizing ms cur dead with
  | nil =>
    simp only [List.map_nil, steps, pure_ok, ok_bind, recsOf]
    simp only [List.map_nil, recsOf] at hj
    rw [flush_fns ti gf g path hs hne dflt env fs ms cur hinv.vars hinv.gvars hj hinv.record]
    cases List.foldlM (fun R r => save ti false (.dict r) (parsePath path) R) ms.results
      ((cur.toList.map (fun r => addDefaults r dflt)).filterMap (keptOf gf dflt env fs)) with
    | error e => rfl
    | ok R => rfl
  | cons h hits ih =>
    have hg := hof h (by simp)
    have ihs := fun ms cur dead hinv hj hrd => ih (fun x hx => hof x (by simp [hx])) ms cur dead hinv hj hrd
    simp only [List.map_cons] at hj
    simp only [List.map_cons, steps, step_single]
    have hpar : ∀ m : MS, parentEnded m h.1 = false := by intro m; simp [parentEnded, hg.parent]
    -- a valid start
    have startCase : ∀ (d : Dict Key Val) (ms1 : MS), ms1.record = ms.record → ms1.results = ms.results → ms1.vars = ms.vars → ms1.gvars = ms.gvars →
        g ∉ ms1.ended →
        (∀ r ∈ cur.toList.map (fun r => addDefaults r dflt) ++ recsOf dflt (some d) false (hits.map evOfE), ∃ out, GJudged gf dflt env fs r out) →
        ((doStart ti gf h.1 d ms1 >>= fun ms' => steps ti gf ms' (hits.map ([·]))) >>= flush ti gf).map seen =
        ((cur.toList.map (fun r => addDefaults r dflt) ++ recsOf dflt (some d) false (hits.map evOfE)).filterMap (keptOf gf dflt env fs) |>.foldlM
          (fun R r => save ti false (.dict r) (parsePath path) R) ms.results).map (fun R => (R, ms.vars, ms.gvars)) := by
      intro d ms1 hr1 hr2 hv1 hv2 hr3 hj
      rw [List.filterMap_append, List.foldlM_append]
      unfold doStart
      rw [flush_fns ti gf g path hs hne dflt env fs { ms1 with started := trace h.1 ms1.started } cur
        (by rw [← hinv.vars]; exact hv1) (by rw [← hinv.gvars]; exact hv2) (fun r hr => hj r (List.mem_append.2 (Or.inl hr))) (by rw [← hinv.record]; exact hr1)]
      simp only [hr2]
      cases List.foldlM (fun R r => save ti false (.dict r) (parsePath path) R) ms.results
        ((cur.toList.map (fun r => addDefaults r dflt)).filterMap (keptOf gf dflt env fs)) with
      | error e => rfl
      | ok R =>
        simp only [ok_bind, pure_ok]
        rw [← hv1, ← hv2]
        refine ihs _ (some d) false ⟨?_, ?_, ?_, ?_, ?_⟩ (fun r hr => hj r (List.mem_append.2 (Or.inr hr))) (Or.inl (by simp))
        · simp [recF, hg.path, hg.funcs, hg.runs, hg.gid]
        · intro e; cases e
        · simp [hr3]
        · exact hv1.trans hinv.vars
        · exact hv2.trans hinv.gvars
    cases hd : h.2 with
    | none =>
      -- rejected start
      have e1 : evOfE h = .badStart := by simp [evOfE, hd]
      have e2 : applyHit ti gf ms h = .ok { ms with ended := addEnded ms.ended h.1.gid } := by
        simp [applyHit, hd]
      rw [e1] at hj ⊢
      rw [e2]
      simp only [recsOf] at hj
      simp only [ok_bind, recsOf]
      refine ihs { ms with ended := addEnded ms.ended h.1.gid } cur true ⟨hinv.record, hinv.started, ?_, hinv.vars, hinv.gvars⟩ hj (Or.inr (Or.inl rfl))
      simp [hg.gid, mem_addEnded]
    | some d =>
      by_cases hst : h.1.action.isStart = true
      · -- valid start, with or without values
        obtain ⟨d', hev, hact⟩ : ∃ d', evOfE h = .start d' ∧ ∀ m : MS, doAction ti gf h.1 d m = doStart ti gf h.1 d' m := by
          cases ha : h.1.action with
          | start => exact ⟨d, by simp [evOfE, hd, ha], fun m => by simp [doAction, ha]⟩
          | startempty => exact ⟨[], by simp [evOfE, hd, ha], fun m => by simp [doAction, ha]⟩
          | _ => simp [ha, Action.isStart] at hst
        rw [hev] at hj ⊢
        simp only [recsOf] at hj ⊢
        by_cases hended : g ∈ ms.ended
        · have e2 : applyHit ti gf ms h = doStart ti gf h.1 d' { ms with ended := ms.ended.filter (fun x => x != h.1.gid) } := by
            simp [applyHit, hd, hpar, hg.gid, hended, hst, hact]
          rw [e2]
          exact startCase d' _ rfl rfl rfl rfl (by simp [hg.gid]) hj
        · have e2 : applyHit ti gf ms h = doStart ti gf h.1 d' ms := by
            simp [applyHit, hd, hpar, hg.gid, hended, hact]
          rw [e2]
          exact startCase d' _ rfl rfl rfl rfl hended hj
      · rcases hg.action with h1 | ⟨hadd | hend, _⟩
        · exact absurd h1 hst
        · -- ordinary line
          have hev : evOfE h = .line d := by simp [evOfE, hd, hadd]
          rw [hev] at hj ⊢
          by_cases hended : g ∈ ms.ended
          · have hdead := hinv.ended.1 hended
            subst hdead
            have e2 : applyHit ti gf ms h = .ok ms := by
              simp [applyHit, hd, hpar, hg.gid, hended, hadd, Action.isStart]
            rw [e2]
            simp only [recsOf] at hj
            simp only [ok_bind, recsOf]
            exact ihs ms cur true hinv hj (Or.inr (Or.inl rfl))
          · have hdead : dead = false := by
              cases dead with
              | false => rfl
              | true => exact absurd (hinv.ended.2 rfl) hended
            subst hdead
            cases cur with
            | none =>
              rcases hready with h2 | h2 | h2
              · exact absurd rfl h2
              · cases h2
              · have := h2 h (by simp)
                exact absurd this hst
            | some r =>
              have hr : ms.record = ⟨r, path, fs, dflt, some g, false⟩ := hinv.record
              have e2 : applyHit ti gf ms h =
                  .ok { ms with record := { ms.record with result := Dict.update d ms.record.result } } := by
                simp [applyHit, hd, hpar, hg.gid, hended, hadd, doAction, doAdd, hr, hg.path]
              rw [e2]
              simp only [recsOf] at hj
              simp only [ok_bind, recsOf]
              refine ihs { ms with record := { ms.record with result := Dict.update d ms.record.result } } (some (Dict.update d r)) false
                ⟨?_, ?_, hinv.ended, hinv.vars, hinv.gvars⟩ hj (Or.inl (by simp))
              · simp [hr, recF]
              · intro e; cases e
        · -- end line
          have hev : evOfE h = .badStart := by simp [evOfE, hd, hend]
          rw [hev] at hj ⊢
          simp only [recsOf] at hj ⊢
          by_cases hended : g ∈ ms.ended
          · have hdead := hinv.ended.1 hended
            subst hdead
            have e2 : applyHit ti gf ms h = .ok ms := by
              simp [applyHit, hd, hpar, hg.gid, hended, hend, Action.isStart]
            rw [e2]
            simp only [ok_bind]
            exact ihs ms cur true hinv hj (Or.inr (Or.inl rfl))
          · have hdead : dead = false := by
              cases dead with
              | false => rfl
              | true => exact absurd (hinv.ended.2 rfl) hended
            subst hdead
            cases cur with
            | none =>
              rcases hready with h2 | h2 | h2
              · exact absurd rfl h2
              · cases h2
              · have := h2 h (by simp)
                exact absurd this hst
            | some r =>
              have hr : ms.record = ⟨r, path, fs, dflt, some g, false⟩ := hinv.record
              have e2 : applyHit ti gf ms h = .ok { ms with ended := addEnded ms.ended h.1.gid } := by
                simp [applyHit, hd, hpar, hg.gid, hended, hend, doAction, doEnd, hr, hg.path]
              rw [e2]
              simp only [ok_bind]
              refine ihs { ms with ended := addEnded ms.ended h.1.gid } (some r) true ⟨hinv.record, hinv.started, ?_, hinv.vars, hinv.gvars⟩ hj (Or.inr (Or.inl rfl))
              simp [hg.gid, mem_addEnded]

end TTP
