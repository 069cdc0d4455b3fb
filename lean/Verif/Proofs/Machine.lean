import Verif.Model.Machine
import Verif.Proofs.Save2
import Verif.Spec.Machine
/-! # Lemmas about the results machine -/

namespace TTP
open Py Spec

/-! ### static paths -/

theorem dynRe_run_ne (c : Char) (cs : Str) (h : c ≠ '{') : Re.run dynRe (c :: cs) = [] := by
  have : (CC.lit '{').test c = false := by simp [CC.test]; exact fun e => h e.symm
  simp [dynRe, Re.lits, Re.run, this]

theorem dynRe_run_nil : Re.run dynRe [] = [] := by
  simp [dynRe, Re.lits, Re.run]

theorem scan_dynRe (s : Str) (pos : Nat) (h : '{' ∉ s) : Re.scan dynRe s pos 0 = [] := by
  induction s generalizing pos with
  | nil => simp [Re.scan, dynRe_run_nil]
  | cons c cs ih =>
    simp only [List.mem_cons, not_or] at h
    rw [Re.scan, dynRe_run_ne c cs (fun e => h.1 e.symm)]
    exact ih _ h.2

theorem dynNames_static (s : Str) (h : '{' ∉ s) : dynNames s = [] := by
  simp [dynNames, Re.finditer, scan_dynRe s 0 h]

theorem rstripP_mem (p : Char → Bool) (s : Str) (c : Char) (h : c ∈ rstripP p s) : c ∈ s := by
  unfold rstripP at h
  rw [List.mem_reverse] at h
  have := (List.dropWhile_sublist p (l := s.reverse)).subset h
  simpa using this

theorem rstripP_take (p : Char → Bool) (s : Str) :
    rstripP p s = s.take (s.length - (s.reverse.takeWhile p).length) := by
  have h := List.takeWhile_append_dropWhile (p := p) (l := s.reverse)
  have h2 : s = (s.reverse.dropWhile p).reverse ++ (s.reverse.takeWhile p).reverse := by
    have := congrArg List.reverse h
    rw [List.reverse_append, List.reverse_reverse] at this
    exact this.symm
  have hl := congrArg List.length h
  simp only [List.length_append, List.length_reverse] at hl
  conv => rhs; rw [h2]
  have e : ((s.reverse.dropWhile p).reverse ++ (s.reverse.takeWhile p).reverse).length -
      (((s.reverse.dropWhile p).reverse ++ (s.reverse.takeWhile p).reverse).reverse.takeWhile p).length =
      (s.reverse.dropWhile p).reverse.length := by
    rw [← h2, List.length_reverse]; omega
  rw [e, List.take_left]; rfl

theorem splitStars_eq (i : Str) : splitStars i = (i.take (i.length - trailingStars i), trailingStars i) := by
  have hl := congrArg List.length (List.takeWhile_append_dropWhile (p := (· == '*')) (l := i.reverse))
  simp only [List.length_append, List.length_reverse] at hl
  unfold splitStars trailingStars
  rw [← rstripP_take]
  congr 1
  unfold rstripP
  rw [List.length_reverse]; omega

theorem formPath_static (vars : Dict Str Val) (path : List Str) (h : StaticPath path) (cache : Dict Str Val) (res : Val) :
    formPath vars path cache res = .ok (cache, res, some (parsePath path)) := by
  induction path with
  | nil => rfl
  | cons i is ih =>
    have hi : dynNames (splitStars i).1 = [] :=
      dynNames_static _ (fun hc => h i (by simp) (rstripP_mem _ _ _ hc))
    rw [formPath, hi]
    simp only [substVars, pure_ok, ok_bind]
    rw [ih (fun x hx => h x (by simp [hx]))]
    simp only [ok_bind, Option.map_some, splitStars_eq]
    rfl

/-! ### processing of a simple record -/

theorem processgrp_simple (ti : Bool) (gf : GroupFns) (ms : MS) (hf : ms.record.functions = [])
    (hm : ms.record.merge = false) (hs : StaticPath ms.record.path) (hne : ms.record.path ≠ []) :
    processgrp ti gf ms = .ok (ms, some (.dict (addDefaults ms.record.result ms.record.defaults), parsePath ms.record.path)) := by
  unfold processgrp preMerge postPath
  simp only [hm, Bool.false_eq_true, if_false, pure_ok, ok_bind, hf, runFns]
  rw [formPath_static _ _ hs]
  cases hp : ms.record.path with
  | nil => exact absurd hp hne
  | cons a as => rfl

theorem flush_simple (ti : Bool) (gf : GroupFns) (ms : MS) (hf : ms.record.functions = [])
    (hm : ms.record.merge = false) (hs : StaticPath ms.record.path) (hne : ms.record.path ≠ []) :
    flush ti gf ms = (save ti false (.dict (addDefaults ms.record.result ms.record.defaults)) (parsePath ms.record.path)
      ms.results >>= fun r => pure { ms with results := r }) := by
  unfold flush
  rw [processgrp_simple ti gf ms hf hm hs hne]
  simp only [ok_bind, hm]

theorem flush_empty (ti : Bool) (gf : GroupFns) (ms : MS) (h : ms.record = Record.empty) : flush ti gf ms = .ok ms := by
  obtain ⟨a, b, c, d, e, f, g⟩ := ms
  simp only at h
  subst h
  simp [flush, processgrp, preMerge, postPath, Record.empty, addDefaults, runFns, formPath]

theorem addDefaults_get (r d : Dict Key Val) (k : Key) :
    Dict.get? (addDefaults r d) k = (Dict.get? r k).or (Dict.get? d k) := by
  unfold addDefaults
  induction d generalizing r with
  | nil => simp
  | cons a d ih =>
    obtain ⟨q, v⟩ := a
    rw [List.foldl_cons, ih, Dict.get?_setdefault, Dict.get?_cons]
    by_cases h : q = k
    · simp [h]
    · simp [h]

theorem addDefaults_WF (r d : Dict Key Val) (h : Dict.WF r) : Dict.WF (addDefaults r d) := by
  unfold addDefaults
  induction d generalizing r with
  | nil => exact h
  | cons a d ih => rw [List.foldl_cons]; exact ih _ (Dict.WF_setdefault _ _ _ h)

/-! ### single matches -/

theorem step_single (ti : Bool) (gf : GroupFns) (ms : MS) (h : Hit) : step ti gf ms [h] = applyHit ti gf ms h := by
  simp [step, select]

theorem steps_append (ti : Bool) (gf : GroupFns) (ms : MS) (a b : List (List Hit)) :
    steps ti gf ms (a ++ b) = (steps ti gf ms a >>= fun ms' => steps ti gf ms' b) := by
  induction a generalizing ms with
  | nil => simp [steps]
  | cons x a ih =>
    simp only [List.cons_append, steps]
    cases step ti gf ms x with
    | error e => rfl
    | ok m => simp only [ok_bind]; exact ih m

theorem mem_addEnded (e : List GId) (g x : GId) : x ∈ addEnded e g ↔ x = g ∨ x ∈ e := by
  unfold addEnded
  split
  · rename_i h
    constructor
    · intro hx; exact Or.inr hx
    · rintro (rfl | hx)
      · exact h
      · exact hx
  · simp

/-! ### a flat group -/

/-- records as computed: current record, whether the group is ended, remaining matches -/
def recsOf (dflt : Dict Key Val) : Option (Dict Key Val) → Bool → List Ev → List (Dict Key Val)
  | cur, _, [] => cur.toList.map (fun r => addDefaults r dflt)
  | cur, _, .start d :: evs => cur.toList.map (fun r => addDefaults r dflt) ++ recsOf dflt (some d) false evs
  | cur, _, .badStart :: evs => recsOf dflt cur true evs
  | cur, true, .line _ :: evs => recsOf dflt cur true evs
  | none, false, .line _ :: evs => recsOf dflt none false evs
  | some r, false, .line d :: evs => recsOf dflt (some (Dict.update d r)) false evs

/-- the state of the machine while a flat group is processed -/
structure FlatInv (g : GId) (path : List Str) (dflt : Dict Key Val) (ms : MS) (cur : Option (Dict Key Val)) (dead : Bool) :
    Prop where
  record : ms.record = match cur with
    | none => Record.empty
    | some r => ⟨r, path, [], dflt, some g, false⟩
  started : cur = none → ms.started = []
  ended : g ∈ ms.ended ↔ dead = true

theorem flush_flat (ti : Bool) (gf : GroupFns) (g : GId) (path : List Str) (hs : StaticPath path) (hne : path ≠ [])
    (dflt : Dict Key Val) (ms : MS) (cur : Option (Dict Key Val))
    (hrec : ms.record = match cur with
      | none => Record.empty
      | some r => ⟨r, path, [], dflt, some g, false⟩) :
    flush ti gf ms = ((cur.toList.map (fun r => addDefaults r dflt)).foldlM
      (fun R r => save ti false (.dict r) (parsePath path) R) ms.results >>= fun R => pure { ms with results := R }) := by
  cases cur with
  | none =>
    simp only at hrec
    rw [flush_empty ti gf ms hrec]
    simp
  | some r =>
    simp only at hrec
    rw [flush_simple ti gf ms (by rw [hrec]) (by rw [hrec]) (by rw [hrec]; exact hs) (by rw [hrec]; exact hne)]
    simp [hrec]

theorem flat_sim (ti : Bool) (gf : GroupFns) (g : GId) (path : List Str) (hs : StaticPath path) (hne : path ≠ [])
    (dflt : Dict Key Val) (hits : List Hit) (hof : ∀ h ∈ hits, OfGroup g path dflt h)
    (ms : MS) (cur : Option (Dict Key Val)) (dead : Bool) (hinv : FlatInv g path dflt ms cur dead) :
    ((steps ti gf ms (hits.map ([·])) >>= flush ti gf).map (·.results)) =
      (recsOf dflt cur dead (hits.map evOf)).foldlM (fun R r => save ti false (.dict r) (parsePath path) R) ms.results := by
  induction hits generalizing ms cur dead with
  | nil =>
    simp only [List.map_nil, steps, pure_ok, ok_bind, recsOf]
    rw [flush_flat ti gf g path hs hne dflt ms cur hinv.record]
    cases List.foldlM (fun R r => save ti false (.dict r) (parsePath path) R) ms.results
      (cur.toList.map (fun r => addDefaults r dflt)) with
    | error e => rfl
    | ok R => rfl
  | cons h hits ih =>
    have hg := hof h (by simp)
    have ihs := fun ms cur dead hinv => ih (fun x hx => hof x (by simp [hx])) ms cur dead hinv
    simp only [List.map_cons, steps, step_single]
    have hpar : ∀ m : MS, parentEnded m h.1 = false := by intro m; simp [parentEnded, hg.parent]
    -- a valid start
    have startCase : ∀ (d : Dict Key Val) (ms1 : MS), ms1.record = ms.record → ms1.results = ms.results →
        g ∉ ms1.ended →
        ((doStart ti gf h.1 d ms1 >>= fun ms' => steps ti gf ms' (hits.map ([·]))) >>= flush ti gf).map (·.results) =
        (cur.toList.map (fun r => addDefaults r dflt) ++ recsOf dflt (some d) false (hits.map evOf)).foldlM
          (fun R r => save ti false (.dict r) (parsePath path) R) ms.results := by
      intro d ms1 hr1 hr2 hr3
      rw [List.foldlM_append]
      unfold doStart
      rw [flush_flat ti gf g path hs hne dflt { ms1 with started := trace h.1 ms1.started } cur
        (by rw [← hinv.record]; exact hr1)]
      simp only [hr2]
      cases List.foldlM (fun R r => save ti false (.dict r) (parsePath path) R) ms.results
        (cur.toList.map (fun r => addDefaults r dflt)) with
      | error e => rfl
      | ok R =>
        simp only [ok_bind, pure_ok]
        refine ihs _ (some d) false ⟨?_, ?_, ?_⟩
        · simp [hg.path, hg.funcs, hg.runs, hg.gid]
        · intro e; cases e
        · simp [hr3]
    cases hd : h.2 with
    | none =>
      -- rejected start
      have e1 : evOf h = .badStart := by simp [evOf, hd]
      have e2 : applyHit ti gf ms h = .ok { ms with ended := addEnded ms.ended h.1.gid } := by
        simp [applyHit, hd]
      rw [e1, e2]
      simp only [ok_bind, recsOf]
      refine ihs _ cur true ⟨hinv.record, hinv.started, ?_⟩
      simp [hg.gid, mem_addEnded]
    | some d =>
      by_cases hst : h.1.action.isStart = true
      · -- valid start, with or without values
        obtain ⟨d', hev, hact⟩ : ∃ d', evOf h = .start d' ∧ ∀ m : MS, doAction ti gf h.1 d m = doStart ti gf h.1 d' m := by
          cases ha : h.1.action with
          | start => exact ⟨d, by simp [evOf, hd, ha], fun m => by simp [doAction, ha]⟩
          | startempty => exact ⟨[], by simp [evOf, hd, ha], fun m => by simp [doAction, ha]⟩
          | _ => simp [ha, Action.isStart] at hst
        rw [hev]
        simp only [recsOf]
        by_cases hended : g ∈ ms.ended
        · have e2 : applyHit ti gf ms h = doStart ti gf h.1 d' { ms with ended := ms.ended.filter (fun x => x != h.1.gid) } := by
            simp [applyHit, hd, hpar, hg.gid, hended, hst, hact]
          rw [e2]
          exact startCase d' _ rfl rfl (by simp [hg.gid])
        · have e2 : applyHit ti gf ms h = doStart ti gf h.1 d' ms := by
            simp [applyHit, hd, hpar, hg.gid, hended, hact]
          rw [e2]
          exact startCase d' _ rfl rfl hended
      · -- ordinary line
        have hadd : h.1.action = .add := by
          rcases hg.action with h1 | h1
          · exact absurd h1 hst
          · exact h1.1
        have hev : evOf h = .line d := by simp [evOf, hd, hadd]
        rw [hev]
        by_cases hended : g ∈ ms.ended
        · have hdead := hinv.ended.1 hended
          subst hdead
          have e2 : applyHit ti gf ms h = .ok ms := by
            simp [applyHit, hd, hpar, hg.gid, hended, hadd, Action.isStart]
          rw [e2]
          simp only [ok_bind, recsOf]
          exact ihs ms cur true hinv
        · have hdead : dead = false := by
            cases dead with
            | false => rfl
            | true => exact absurd (hinv.ended.2 rfl) hended
          subst hdead
          cases cur with
          | none =>
            have hr : ms.record = Record.empty := hinv.record
            have e2 : applyHit ti gf ms h = .ok ms := by
              have hp : ¬ (Record.empty.path = h.1.path) := by rw [hg.path]; exact fun e => hne e.symm
              simp [applyHit, hd, hpar, hg.gid, hended, hadd, doAction, doAdd, hr, hp, lateStart, hinv.started rfl]
            rw [e2]
            simp only [ok_bind, recsOf]
            exact ihs ms none false hinv
          | some r =>
            have hr : ms.record = ⟨r, path, [], dflt, some g, false⟩ := hinv.record
            have e2 : applyHit ti gf ms h =
                .ok { ms with record := { ms.record with result := Dict.update d ms.record.result } } := by
              simp [applyHit, hd, hpar, hg.gid, hended, hadd, doAction, doAdd, hr, hg.path]
            rw [e2]
            simp only [ok_bind, recsOf]
            refine ihs _ (some (Dict.update d r)) false ⟨?_, ?_, hinv.ended⟩
            · simp [hr]
            · intro e; cases e

/-! ### relation to the segmentation -/

theorem recsOf_segments (dflt : Dict Key Val) (evs : List Ev)
    (hwf : ∀ ev ∈ evs, match ev with
      | .start d => Dict.WF d
      | .line d => Dict.WF d
      | .badStart => True) :
    (∀ dead, All2 (IsRecordOf dflt) (segments evs) (recsOf dflt none dead evs)) ∧
    (∀ r, Dict.WF r → All2 (IsRecordOf dflt) ((r, []) :: segments evs) (recsOf dflt (some r) true evs)) ∧
    (∀ r, Dict.WF r → All2 (IsRecordOf dflt) ((r, linesOf evs) :: segments evs) (recsOf dflt (some r) false evs)) := by
  have base : ∀ r, IsRecordOf dflt (r, []) (addDefaults r dflt) := by
    intro r k
    rw [addDefaults_get]
    simp only [List.cons_append, List.nil_append, List.findSome?]
    cases Dict.get? r k <;> cases Dict.get? dflt k <;> rfl
  induction evs with
  | nil =>
    refine ⟨fun dead => ?_, fun r _ => ?_, fun r _ => ?_⟩
    · simp only [segments, recsOf, Option.toList_none, List.map_nil]; exact .nil
    · simp only [segments, recsOf, Option.toList_some, List.map_cons, List.map_nil]
      exact .cons (base r) .nil
    · simp only [segments, linesOf, recsOf, Option.toList_some, List.map_cons, List.map_nil]
      exact .cons (base r) .nil
  | cons ev evs ih =>
    obtain ⟨ih1, ih2, ih3⟩ := ih (fun e he => hwf e (by simp [he]))
    have hev := hwf ev (by simp)
    cases ev with
    | start d =>
      refine ⟨fun dead => ?_, fun r hr => ?_, fun r hr => ?_⟩
      · simp only [segments, recsOf, Option.toList_none, List.map_nil, List.nil_append]; exact ih3 d hev
      · simp only [segments, recsOf, Option.toList_some, List.map_cons, List.map_nil, List.cons_append, List.nil_append]
        exact .cons (base r) (ih3 d hev)
      · simp only [segments, linesOf, recsOf, Option.toList_some, List.map_cons, List.map_nil, List.cons_append, List.nil_append]
        exact .cons (base r) (ih3 d hev)
    | badStart =>
      refine ⟨fun dead => ?_, fun r hr => ?_, fun r hr => ?_⟩
      · simp only [segments, recsOf]; exact ih1 true
      · simp only [segments, recsOf]; exact ih2 r hr
      · simp only [segments, linesOf, recsOf]; exact ih2 r hr
    | line d =>
      refine ⟨fun dead => ?_, fun r hr => ?_, fun r hr => ?_⟩
      · cases dead
        · simp only [segments, recsOf]; exact ih1 false
        · simp only [segments, recsOf]; exact ih1 true
      · simp only [segments, recsOf]; exact ih2 r hr
      · simp only [segments, linesOf, recsOf]
        have h := ih3 (Dict.update d r) (Dict.WF_update _ _ hev)
        cases hrec : recsOf dflt (some (Dict.update d r)) false evs with
        | nil => rw [hrec] at h; cases h
        | cons x xs =>
          rw [hrec] at h
          cases h with
          | cons h1 h2 =>
            refine .cons ?_ h2
            intro k
            rw [h1 k]
            simp only [List.cons_append, List.findSome?]
            rw [Dict.get?_update _ _ hr]
            cases Dict.get? r k <;> cases Dict.get? d k <;> rfl

/-! ### ended groups stay ended -/

theorem runFns_ended (gf : GroupFns) (hk : KeepsEnded gf) (fs : List FnCall) (ms : MS) (v : Val) (r : MS × Option Val)
    (h : runFns gf fs ms v = .ok r) : r.1.ended = ms.ended := by
  induction fs generalizing ms v with
  | nil => simp only [runFns, pure_ok, Except.ok.injEq] at h; rw [← h]
  | cons f fs ih =>
    simp only [runFns, bind_ok_iff] at h
    obtain ⟨⟨ms1, v1, fl⟩, h1, h2⟩ := h
    have e := hk _ _ _ _ _ _ h1
    simp only at h2
    split at h2
    · simp only [pure_ok, Except.ok.injEq] at h2; rw [← h2]; exact e
    · rw [ih _ _ h2]; exact e

theorem preMerge_ended (ti : Bool) (ms : MS) (d : Dict Key Val) (r : MS × Val)
    (h : preMerge ti ms d = .ok r) : r.1.ended = ms.ended := by
  unfold preMerge at h
  split at h
  · simp only [bind_ok_iff] at h
    obtain ⟨⟨c, rs, p⟩, _, h1⟩ := h
    simp only at h1
    split at h1
    · simp only [bind_ok_iff] at h1
      obtain ⟨⟨a, b⟩, _, h1⟩ := h1
      simp only [pure_ok, Except.ok.injEq] at h1
      rw [← h1]
    · simp only [pure_ok, Except.ok.injEq] at h1
      rw [← h1]
  · simp only [pure_ok, Except.ok.injEq] at h
    rw [← h]

theorem postPath_ended (ms : MS) (v : Val) (r : MS × Option (Val × List PItem))
    (h : postPath ms v = .ok r) : r.1.ended = ms.ended := by
  simp only [postPath, bind_ok_iff] at h
  obtain ⟨⟨c, rs, p⟩, _, h3⟩ := h
  simp only at h3
  split at h3
  · simp only [pure_ok, Except.ok.injEq] at h3; rw [← h3]
  · simp only [pure_ok, Except.ok.injEq] at h3; rw [← h3]

theorem processgrp_ended (ti : Bool) (gf : GroupFns) (hk : KeepsEnded gf) (ms : MS) (r : MS × Option (Val × List PItem))
    (h : processgrp ti gf ms = .ok r) : r.1.ended = ms.ended := by
  simp only [processgrp, bind_ok_iff] at h
  obtain ⟨⟨ms1, v1⟩, h1, ⟨ms2, out⟩, h2, h3⟩ := h
  have e1 := preMerge_ended ti _ _ _ h1
  have e2 := runFns_ended gf hk _ _ _ _ h2
  simp only at e1 e2 h3
  split at h3
  · simp only [pure_ok, Except.ok.injEq] at h3; rw [← h3]; exact e2.trans e1
  · rw [postPath_ended _ _ _ h3]; exact e2.trans e1

theorem flush_ended (ti : Bool) (gf : GroupFns) (hk : KeepsEnded gf) (ms ms' : MS) (h : flush ti gf ms = .ok ms') :
    ms'.ended = ms.ended := by
  simp only [flush, bind_ok_iff] at h
  obtain ⟨⟨ms1, out⟩, h1, h2⟩ := h
  have e := processgrp_ended ti gf hk _ _ h1
  simp only at e h2
  split at h2
  · simp only [pure_ok, Except.ok.injEq] at h2; rw [← h2]; exact e
  · simp only [bind_ok_iff] at h2
    obtain ⟨r, _, h2⟩ := h2
    simp only [pure_ok, Except.ok.injEq] at h2; rw [← h2]; exact e

theorem doStart_ended (ti : Bool) (gf : GroupFns) (hk : KeepsEnded gf) (re : RE) (d : Dict Key Val) (ms ms' : MS)
    (h : doStart ti gf re d ms = .ok ms') : ms'.ended = ms.ended := by
  simp only [doStart, bind_ok_iff] at h
  obtain ⟨m, h1, h2⟩ := h
  have e := flush_ended ti gf hk _ _ h1
  simp only [pure_ok, Except.ok.injEq] at h2; rw [← h2]; exact e

theorem lateStart_ended (ti : Bool) (gf : GroupFns) (hk : KeepsEnded gf) (re : RE) (d : Dict Key Val) (ms ms' : MS)
    (h : lateStart ti gf re d ms = .ok ms') : ms'.ended = ms.ended := by
  unfold lateStart at h
  split at h
  · simp only [bind_ok_iff] at h
    obtain ⟨m, h1, h2⟩ := h
    have e := doStart_ended ti gf hk _ _ _ _ h1
    simp only [pure_ok, Except.ok.injEq] at h2; rw [← h2]; exact e
  · simp only [pure_ok, Except.ok.injEq] at h; rw [← h]

theorem doAction_ended (ti : Bool) (gf : GroupFns) (hk : KeepsEnded gf) (re : RE) (d : Dict Key Val) (ms ms' : MS)
    (h : doAction ti gf re d ms = .ok ms') (g : GId) (hg : g ∈ ms.ended) : g ∈ ms'.ended := by
  unfold doAction at h
  split at h
  · rw [doStart_ended ti gf hk _ _ _ _ h]; exact hg
  · rw [doStart_ended ti gf hk _ _ _ _ h]; exact hg
  · unfold doAdd at h
    split at h
    · simp only [pure_ok, Except.ok.injEq] at h; rw [← h]; exact hg
    · rw [lateStart_ended ti gf hk _ _ _ _ h]; exact hg
  · unfold doJoin at h
    split at h
    · simp only [bind_ok_iff] at h
      obtain ⟨m, _, h⟩ := h
      simp only [pure_ok, Except.ok.injEq] at h; rw [← h]; exact hg
    · rw [lateStart_ended ti gf hk _ _ _ _ h]; exact hg
  · unfold doEnd at h
    split at h
    · split at h
      · simp at h
      · split at h
        · simp only [pure_ok, Except.ok.injEq] at h; rw [← h]; exact hg
        · simp only [pure_ok, Except.ok.injEq] at h; rw [← h]; exact (mem_addEnded _ _ _).2 (Or.inr hg)
    · simp only [pure_ok, Except.ok.injEq] at h; rw [← h]; exact (mem_addEnded _ _ _).2 (Or.inr hg)

theorem applyHit_ended (ti : Bool) (gf : GroupFns) (hk : KeepsEnded gf) (ms ms' : MS) (h : Hit) (g : GId)
    (hg : g ∈ ms.ended) (hv : ValidStart g h = false) (e : applyHit ti gf ms h = .ok ms') : g ∈ ms'.ended := by
  unfold applyHit at e
  split at e
  · simp only [pure_ok, Except.ok.injEq] at e; rw [← e]; exact (mem_addEnded _ _ _).2 (Or.inr hg)
  · rename_i data hd
    split at e
    · simp only [pure_ok, Except.ok.injEq] at e; rw [← e]; exact hg
    · split at e
      · split at e
        · rename_i _ _ hst
          refine doAction_ended ti gf hk _ _ _ _ e g ?_
          simp only [List.mem_filter, hg, true_and, bne_iff_ne, ne_eq]
          intro e2
          simp [ValidStart, ← e2, hst, hd] at hv
        · simp only [pure_ok, Except.ok.injEq] at e; rw [← e]; exact hg
      · exact doAction_ended ti gf hk _ _ _ _ e g hg

theorem applyHit_quiet (ti : Bool) (gf : GroupFns) (ms : MS) (h : Hit) (g : GId)
    (hg : g ∈ ms.ended) (hq : Quiet g h = true) : applyHit ti gf ms h = .ok ms := by
  simp only [Quiet, Bool.and_eq_true, beq_iff_eq, Bool.not_eq_true'] at hq
  obtain ⟨⟨h1, h2⟩, h3⟩ := hq
  obtain ⟨d, hd⟩ := Option.isSome_iff_exists.1 h3
  simp [applyHit, hd, h1, hg, h2]

end TTP

namespace TTP
open Py Spec

theorem recsOf_WF (dflt : Dict Key Val) (cur : Option (Dict Key Val)) (dead : Bool) (evs : List Ev)
    (hc : ∀ r, cur = some r → Dict.WF r)
    (hwf : ∀ ev ∈ evs, match ev with
      | .start d => Dict.WF d
      | .line d => Dict.WF d
      | .badStart => True) : ∀ r ∈ recsOf dflt cur dead evs, Dict.WF r := by
  induction evs generalizing cur dead with
  | nil =>
    intro r hr
    cases cur with
    | none => simp [recsOf] at hr
    | some c => simp only [recsOf, Option.toList_some, List.map_cons, List.map_nil, List.mem_singleton] at hr
                subst hr; exact addDefaults_WF _ _ (hc c rfl)
  | cons ev evs ih =>
    have hev := hwf ev (by simp)
    have ihs := fun cur dead hc => ih cur dead hc (fun e he => hwf e (by simp [he]))
    intro r hr
    cases ev with
    | start d =>
      rw [recsOf, List.mem_append] at hr
      rcases hr with hr | hr
      · cases cur with
        | none => simp at hr
        | some c => simp only [Option.toList_some, List.map_cons, List.map_nil, List.mem_singleton] at hr
                    subst hr; exact addDefaults_WF _ _ (hc c rfl)
      · exact ihs (some d) false (by intro r e; cases e; exact hev) r hr
    | badStart => rw [recsOf] at hr; exact ihs cur true hc r hr
    | line d =>
      cases dead with
      | true => rw [recsOf] at hr; exact ihs cur true hc r hr
      | false =>
        cases cur with
        | none => rw [recsOf] at hr; exact ihs none false hc r hr
        | some c =>
          rw [recsOf] at hr
          exact ihs (some (Dict.update d c)) false (by intro r e; cases e; exact Dict.WF_update _ _ hev) r hr

/-! ### selection -/

theorem firstOr_mem (p1 p2 : Hit → Bool) (hs : List Hit) (h : Hit) (e : firstOr p1 p2 hs = some h) : h ∈ hs := by
  unfold firstOr at e
  split at e
  · rename_i h1; cases e; exact List.mem_of_find?_eq_some h1
  · split at e
    · rename_i h1; cases e; exact List.mem_of_find?_eq_some h1
    · exact List.mem_of_getLast? e

theorem firstOr_first (p1 p2 : Hit → Bool) (hs : List Hit) (h h' : Hit) (e : firstOr p1 p2 hs = some h)
    (hm : h' ∈ hs) (hp : p1 h' = true) : p1 h = true := by
  unfold firstOr at e
  split at e
  · rename_i h1; cases e; exact List.find?_some h1
  · rename_i h1
    rw [List.find?_eq_none] at h1
    exact absurd hp (h1 _ hm)

theorem firstOr_some (p1 p2 : Hit → Bool) (hs : List Hit) (h : hs ≠ []) : ∃ x, firstOr p1 p2 hs = some x := by
  unfold firstOr
  split
  · exact ⟨_, rfl⟩
  · split
    · exact ⟨_, rfl⟩
    · exact ⟨hs.getLast h, List.getLast?_eq_some_getLast h⟩

/-- the class of matches the selection looks at -/
theorem select_class (ms : MS) (hs : List Hit) (h : Hit) (e : select ms hs = some h) :
    h ∈ hs ∧ (∀ h' ∈ hs, rank h ≤ rank h') := by
  have key : ∀ hs : List Hit, (if !(((hs.filter (fun h => !h.1.isLine)).filter (fun h => h.1.action == .startempty)).isEmpty)
      then firstOr (sameGroupOk ms) (relatedOk ms) ((hs.filter (fun h => !h.1.isLine)).filter (fun h => h.1.action == .startempty))
      else if !(((hs.filter (fun h => !h.1.isLine)).filter (fun h => h.1.action == .start)).isEmpty)
      then firstOr (sameGroupOk ms) (relatedOk ms) ((hs.filter (fun h => !h.1.isLine)).filter (fun h => h.1.action == .start))
      else if !(((hs.filter (fun h => !h.1.isLine)).filter (fun h => !(h.1.action == .start) && !(h.1.action == .startempty))).isEmpty)
      then firstOr (sameGroup ms) (groupStarted ms) ((hs.filter (fun h => !h.1.isLine)).filter (fun h => !(h.1.action == .start) && !(h.1.action == .startempty)))
      else firstOr (sameGroup ms) (fun _ => false) (hs.filter (fun h => h.1.isLine))) = some h →
      h ∈ hs ∧ (∀ h' ∈ hs, rank h ≤ rank h') := by
    intro hs e
    have emp : ∀ (p q : Hit → Bool), ((hs.filter p).filter q).isEmpty = true → ∀ x ∈ hs, p x = true → q x = false := by
      intro p q he x hx hp
      rw [List.isEmpty_iff, List.filter_eq_nil_iff] at he
      have := he x (List.mem_filter.2 ⟨hx, hp⟩)
      simpa using this
    split at e
    · have hm := firstOr_mem _ _ _ _ e
      simp only [List.mem_filter, Bool.not_eq_true', beq_iff_eq] at hm
      refine ⟨hm.1.1, fun h' _ => ?_⟩
      simp [rank, hm.1.2, hm.2]
    · rename_i n1
      simp only [Bool.not_eq_true', Bool.not_eq_false] at n1
      have n1' := emp _ _ n1
      split at e
      · have hm := firstOr_mem _ _ _ _ e
        simp only [List.mem_filter, Bool.not_eq_true', beq_iff_eq] at hm
        refine ⟨hm.1.1, fun h' hh' => ?_⟩
        have := n1' h' hh'
        cases hl : h'.1.isLine
        · have := this (by simp [hl])
          cases ha : h'.1.action <;> simp_all [rank]
        · simp [rank, hm.1.2, hm.2, hl]
      · rename_i n2
        simp only [Bool.not_eq_true', Bool.not_eq_false] at n2
        have n2' := emp _ _ n2
        split at e
        · have hm := firstOr_mem _ _ _ _ e
          simp only [List.mem_filter, Bool.not_eq_true'] at hm
          refine ⟨hm.1.1, fun h' hh' => ?_⟩
          have t1 := n1' h' hh'
          have t2 := n2' h' hh'
          have r1 : rank h = 2 := by
            unfold rank
            cases ha : h.1.action <;> simp_all
          rw [r1]
          cases hl : h'.1.isLine
          · have t1 := t1 (by simp [hl])
            have t2 := t2 (by simp [hl])
            cases ha : h'.1.action <;> simp_all [rank]
          · simp [rank, hl]
        · rename_i n3
          simp only [Bool.not_eq_true', Bool.not_eq_false] at n3
          have n3' := emp _ _ n3
          have hm := firstOr_mem _ _ _ _ e
          simp only [List.mem_filter] at hm
          refine ⟨hm.1, fun h' hh' => ?_⟩
          have t1 := n1' h' hh'
          have t2 := n2' h' hh'
          have t3 := n3' h' hh'
          cases hl : h'.1.isLine
          · have t1 := t1 (by simp [hl])
            have t2 := t2 (by simp [hl])
            have t3 := t3 (by simp [hl])
            cases ha : h'.1.action <;> simp_all
          · simp only [rank, hl, if_true, hm.2]
            omega
  unfold select at e
  split at e
  · cases e
    exact ⟨by simp, by intro h' hh'; simp at hh'; rw [hh']; exact Nat.le_refl _⟩
  · exact key _ e

theorem select_prefers (ms : MS) (hs : List Hit) (h h' : Hit) (e : select ms hs = some h) (hm : h' ∈ hs)
    (hr : rank h' = rank h) (hg : ms.record.grpId = some h'.1.gid) (hv : h'.2.isSome = true ∨ 2 ≤ rank h') :
    ms.record.grpId = some h.1.gid ∧ (rank h < 2 → h.2.isSome = true) := by
  have key : ∀ hs : List Hit, h' ∈ hs →
      (if !(((hs.filter (fun h => !h.1.isLine)).filter (fun h => h.1.action == .startempty)).isEmpty)
      then firstOr (sameGroupOk ms) (relatedOk ms) ((hs.filter (fun h => !h.1.isLine)).filter (fun h => h.1.action == .startempty))
      else if !(((hs.filter (fun h => !h.1.isLine)).filter (fun h => h.1.action == .start)).isEmpty)
      then firstOr (sameGroupOk ms) (relatedOk ms) ((hs.filter (fun h => !h.1.isLine)).filter (fun h => h.1.action == .start))
      else if !(((hs.filter (fun h => !h.1.isLine)).filter (fun h => !(h.1.action == .start) && !(h.1.action == .startempty))).isEmpty)
      then firstOr (sameGroup ms) (groupStarted ms) ((hs.filter (fun h => !h.1.isLine)).filter (fun h => !(h.1.action == .start) && !(h.1.action == .startempty)))
      else firstOr (sameGroup ms) (fun _ => false) (hs.filter (fun h => h.1.isLine))) = some h →
      ms.record.grpId = some h.1.gid ∧ (rank h < 2 → h.2.isSome = true) := by
    intro hs hm e
    split at e
    · have hmem := firstOr_mem _ _ _ _ e
      simp only [List.mem_filter, Bool.not_eq_true', beq_iff_eq] at hmem
      have r0 : rank h = 0 := by simp [rank, hmem.1.2, hmem.2]
      rw [r0] at hr
      have hc : h'.1.isLine = false ∧ h'.1.action = .startempty := by
        unfold rank at hr
        split at hr
        · cases hr
        · split at hr <;> simp_all
      have hv' : h'.2.isSome = true := by rcases hv with hv | hv; exact hv; omega
      have := firstOr_first _ _ _ _ h' e (by simp [List.mem_filter, hm, hc]) (by simp [sameGroupOk, hv', hg])
      simp only [sameGroupOk, Bool.and_eq_true, beq_iff_eq] at this
      exact ⟨this.2, fun _ => this.1⟩
    · split at e
      · have hmem := firstOr_mem _ _ _ _ e
        simp only [List.mem_filter, Bool.not_eq_true', beq_iff_eq] at hmem
        have r0 : rank h = 1 := by simp [rank, hmem.1.2, hmem.2]
        rw [r0] at hr
        have hc : h'.1.isLine = false ∧ h'.1.action = .start := by
          unfold rank at hr
          split at hr
          · cases hr
          · split at hr <;> simp_all
        have hv' : h'.2.isSome = true := by rcases hv with hv | hv; exact hv; omega
        have := firstOr_first _ _ _ _ h' e (by simp [List.mem_filter, hm, hc]) (by simp [sameGroupOk, hv', hg])
        simp only [sameGroupOk, Bool.and_eq_true, beq_iff_eq] at this
        exact ⟨this.2, fun _ => this.1⟩
      · split at e
        · have hmem := firstOr_mem _ _ _ _ e
          simp only [List.mem_filter, Bool.not_eq_true'] at hmem
          have r0 : rank h = 2 := by
            unfold rank
            cases ha : h.1.action <;> simp_all
          rw [r0] at hr
          have hc : h'.1.isLine = false ∧ h'.1.action ≠ .start ∧ h'.1.action ≠ .startempty := by
            unfold rank at hr
            split at hr
            · cases hr
            · split at hr <;> simp_all
          have := firstOr_first _ _ _ _ h' e (by simp [List.mem_filter, hm, hc]) (by simp [sameGroup, hg])
          simp only [sameGroup, beq_iff_eq] at this
          exact ⟨this, fun hlt => by omega⟩
        · have hmem := firstOr_mem _ _ _ _ e
          simp only [List.mem_filter] at hmem
          have r0 : rank h = 3 := by simp [rank, hmem.2]
          rw [r0] at hr
          have hc : h'.1.isLine = true := by
            unfold rank at hr
            split at hr
            · assumption
            · split at hr <;> simp_all
          have := firstOr_first _ _ _ _ h' e (by simp [List.mem_filter, hm, hc]) (by simp [sameGroup, hg])
          simp only [sameGroup, beq_iff_eq] at this
          exact ⟨this, fun hlt => by omega⟩
  unfold select at e
  split at e
  · cases e
    simp only [List.mem_singleton] at hm
    subst hm
    exact ⟨hg, fun hlt => by rcases hv with hv | hv; exact hv; omega⟩
  · exact key _ hm e

theorem select_some (ms : MS) (hs : List Hit) (hne : hs ≠ []) : ∃ h, select ms hs = some h := by
  unfold select
  split
  · exact ⟨_, rfl⟩
  · dsimp only
    split
    · rename_i h; exact firstOr_some _ _ _ (by simpa using h)
    · split
      · rename_i h; exact firstOr_some _ _ _ (by simpa using h)
      · split
        · rename_i h; exact firstOr_some _ _ _ (by simpa using h)
        · rename_i n1 n2 n3
          refine firstOr_some _ _ _ ?_
          intro hl
          simp only [Bool.not_eq_true', Bool.not_eq_false, List.isEmpty_iff, List.filter_eq_nil_iff, List.mem_filter] at n1 n2 n3
          rw [List.filter_eq_nil_iff] at hl
          obtain ⟨x, hx⟩ := List.exists_mem_of_ne_nil hs hne
          have a0 := hl x hx
          have a1 := n1 x ⟨hx, by simpa using a0⟩
          have a2 := n2 x ⟨hx, by simpa using a0⟩
          have a3 := n3 x ⟨hx, by simpa using a0⟩
          simp_all

end TTP

namespace TTP
open Py Spec

/-! ### joined matches -/

theorem joinArg_none (cur : Val) (fns : List FnCall) (h : ∀ f ∈ fns, f.name ≠ c!"joinmatches") : joinArg cur fns = cur := by
  induction fns with
  | nil => rfl
  | cons f fns ih => rw [joinArg, if_neg (h f (by simp))]; exact ih (fun x hx => h x (by simp [hx]))

theorem joinArg_JoinsBy (fns : List FnCall) (j : Str) (h : JoinsBy fns j) : joinArg (.str ['\n']) fns = .str j := by
  rcases h with ⟨h, rfl⟩ | ⟨pre, f, post, rfl, hpre, hf, harg⟩
  · exact joinArg_none _ _ h
  · induction pre with
    | nil =>
      rw [List.nil_append, joinArg, if_pos hf]
      rcases harg with ⟨h, rfl⟩ | h
      · rw [h]; rfl
      · rw [h]; rfl
    | cons x pre ih =>
      rw [List.cons_append, joinArg, if_neg (hpre x (by simp))]
      exact ih (fun y hy => hpre y (by simp [hy]))

/-- the function folded by `joinChar` -/
def joinCharF (vfuncs : Dict Str (List FnCall)) (cur : Val) (kv : Key × Val) : Val :=
  match kv.1 with
  | .s name => match Dict.get? vfuncs name with
    | some fns => joinArg cur fns
    | none => cur
  | .i _ => cur

theorem joinChar_other (vf : Dict Str (List FnCall)) (d : List (Key × Val)) (cur : Val)
    (h : ∀ n fns, Key.s n ∈ Dict.keys d → Dict.get? vf n = some fns → ∀ f ∈ fns, f.name ≠ c!"joinmatches") :
    d.foldl (joinCharF vf) cur = cur := by
  induction d with
  | nil => rfl
  | cons a d ih =>
    obtain ⟨k, v⟩ := a
    rw [List.foldl_cons]
    have h1 : joinCharF vf cur (k, v) = cur := by
      unfold joinCharF
      cases k with
      | i n => rfl
      | s n =>
        simp only
        cases hg : Dict.get? vf n with
        | none => rfl
        | some fns => exact joinArg_none _ _ (h n fns (by simp [Dict.keys]) hg)
    rw [h1]
    exact ih (fun n fns hn => h n fns (by simp only [Dict.keys, List.map_cons, List.mem_cons] at hn ⊢; exact Or.inr hn))

theorem joinChar_eq (vf : Dict Str (List FnCall)) (d : Dict Key Val) (k : Str) (fns : List FnCall) (j : Str)
    (hwf : Dict.WF d) (hk : Key.s k ∈ Dict.keys d) (hf : Dict.get? vf k = some fns) (hj : JoinsBy fns j)
    (h : ∀ n fns, n ≠ k → Key.s n ∈ Dict.keys d → Dict.get? vf n = some fns → ∀ f ∈ fns, f.name ≠ c!"joinmatches") :
    joinChar vf d = .str j := by
  have : ∀ d : List (Key × Val), Dict.WF d → Key.s k ∈ Dict.keys d →
      (∀ n fns, n ≠ k → Key.s n ∈ Dict.keys d → Dict.get? vf n = some fns → ∀ f ∈ fns, f.name ≠ c!"joinmatches") →
      d.foldl (joinCharF vf) (.str ['\n']) = .str j := by
    intro d
    induction d with
    | nil => intro _ hk; simp [Dict.keys] at hk
    | cons a d ih =>
      obtain ⟨q, v⟩ := a
      intro hwf hk h
      have hw := (Dict.WF_cons q v d).1 hwf
      rw [List.foldl_cons]
      by_cases e : q = .s k
      · subst e
        have : joinCharF vf (.str ['\n']) (.s k, v) = .str j := by
          simp only [joinCharF, hf]; exact joinArg_JoinsBy _ _ hj
        rw [this]
        refine joinChar_other vf d _ (fun n fns hn => ?_)
        refine h n fns ?_ (by simp only [Dict.keys, List.map_cons, List.mem_cons] at hn ⊢; exact Or.inr hn)
        intro en; subst en; exact hw.1 hn
      · have h1 : joinCharF vf (.str ['\n']) (q, v) = .str ['\n'] := by
          unfold joinCharF
          cases q with
          | i n => rfl
          | s n =>
            simp only
            cases hg : Dict.get? vf n with
            | none => rfl
            | some fns => exact joinArg_none _ _ (h n fns (by intro en; subst en; exact e rfl) (by simp [Dict.keys]) hg)
        rw [h1]
        refine ih hw.2 ?_ (fun n fns hn hn2 => h n fns hn (by simp only [Dict.keys, List.map_cons, List.mem_cons] at hn2 ⊢; exact Or.inr hn2))
        simp only [Dict.keys, List.map_cons, List.mem_cons] at hk
        rcases hk with hk | hk
        · exact absurd hk.symm e
        · exact hk
  exact this d hwf hk h

theorem joinAll_get (jc : Val) (d rec rec' : Dict Key Val) (hwf : Dict.WF d) (h : joinAll jc d rec = .ok rec') (k : Key) :
    match Dict.get? d k with
    | none => Dict.get? rec' k = Dict.get? rec k
    | some v => ∃ w, joinVal jc (Dict.get? rec k) v = .ok w ∧ Dict.get? rec' k = some w := by
  induction d generalizing rec with
  | nil => simp only [joinAll, pure_ok, Except.ok.injEq] at h; simp [h]
  | cons a d ih =>
    obtain ⟨q, v⟩ := a
    have hw := (Dict.WF_cons q v d).1 hwf
    simp only [joinAll, bind_ok_iff] at h
    obtain ⟨w, h1, h2⟩ := h
    have := ih _ hw.2 h2
    rw [Dict.get?_cons]
    by_cases e : q = k
    · subst e
      simp only [if_true]
      have hn : Dict.get? d q = none := (Dict.get?_eq_none_iff d q).2 hw.1
      rw [hn] at this
      exact ⟨w, h1, by rw [this, Dict.get?_set_self]⟩
    · rw [if_neg e]
      rw [Dict.get?_set_ne _ _ e] at this
      exact this

theorem join_snoc (j : Str) (ss : List Str) (s : Str) (h : ss ≠ []) : join j (ss ++ [s]) = join j ss ++ (j ++ s) := by
  induction ss with
  | nil => exact absurd rfl h
  | cons a ss ih =>
    cases ss with
    | nil => simp [join]
    | cons b ss =>
      have := ih (by simp)
      simp only [List.cons_append] at this ⊢
      rw [join, join, this]
      simp [List.append_assoc]

end TTP
