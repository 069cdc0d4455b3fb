import Verif.Proofs.Machine
/-! # Lemmas: a flat group with `_end_` lines -/

namespace TTP
open Py Spec

/-- the parts of the state that can be seen afterwards -/
def seen (m : MS) : Val × Dict Str Val × Dict Str Val := (m.results, m.vars, m.gvars)

theorem flat_simE (ti : Bool) (gf : GroupFns) (g : GId) (path : List Str) (hs : StaticPath path) (hne : path ≠ [])
    (dflt : Dict Key Val) (hits : List Hit) (hof : ∀ h ∈ hits, OfGroupE g path dflt h)
    (ms : MS) (cur : Option (Dict Key Val)) (dead : Bool) (hinv : FlatInv g path dflt ms cur dead)
    (hready : cur ≠ none ∨ dead = true ∨ ∀ h ∈ hits.head?, h.1.action.isStart = true) :
    ((steps ti gf ms (hits.map ([·])) >>= flush ti gf).map seen) =
      ((recsOf dflt cur dead (hits.map evOfE)).foldlM (fun R r => save ti false (.dict r) (parsePath path) R) ms.results).map
        (fun R => (R, ms.vars, ms.gvars)) := by
  induction hits generalizing ms cur dead with
  | nil =>
    simp only [List.map_nil, steps, pure_ok, ok_bind, recsOf]
    rw [flush_flat ti gf g path hs hne dflt ms cur hinv.record]
    cases List.foldlM (fun R r => save ti false (.dict r) (parsePath path) R) ms.results
      (cur.toList.map (fun r => addDefaults r dflt)) with
    | error e => rfl
    | ok R => rfl
  | cons h hits ih =>
    have hg := hof h (by simp)
    have ihs := fun ms cur dead hinv hrd => ih (fun x hx => hof x (by simp [hx])) ms cur dead hinv hrd
    simp only [List.map_cons, steps, step_single]
    have hpar : ∀ m : MS, parentEnded m h.1 = false := by intro m; simp [parentEnded, hg.parent]
    -- a valid start
    have startCase : ∀ (d : Dict Key Val) (ms1 : MS), ms1.record = ms.record → ms1.results = ms.results → ms1.vars = ms.vars → ms1.gvars = ms.gvars →
        g ∉ ms1.ended →
        ((doStart ti gf h.1 d ms1 >>= fun ms' => steps ti gf ms' (hits.map ([·]))) >>= flush ti gf).map seen =
        ((cur.toList.map (fun r => addDefaults r dflt) ++ recsOf dflt (some d) false (hits.map evOfE)).foldlM
          (fun R r => save ti false (.dict r) (parsePath path) R) ms.results).map (fun R => (R, ms.vars, ms.gvars)) := by
      intro d ms1 hr1 hr2 hv1 hv2 hr3
      rw [List.foldlM_append]
      unfold doStart
      rw [flush_flat ti gf g path hs hne dflt { ms1 with started := trace h.1 ms1.started } cur
        (by rw [← hinv.record]; exact hr1)]
      simp only [hr2]
      cases List.foldlM (fun R r => save ti false (.dict r) (parsePath path) R) ms.results
        (cur.toList.map (fun r => addDefaults r dflt)) with
      | error e => rfl
      | ok R =>
        simp only [ok_bind, pure_ok]
        rw [← hv1, ← hv2]
        refine ihs _ (some d) false ⟨?_, ?_, ?_⟩ (Or.inl (by simp))
        · simp [hg.path, hg.funcs, hg.runs, hg.gid]
        · intro e; cases e
        · simp [hr3]
    cases hd : h.2 with
    | none =>
      -- rejected start
      have e1 : evOfE h = .badStart := by simp [evOfE, hd]
      have e2 : applyHit ti gf ms h = .ok { ms with ended := addEnded ms.ended h.1.gid } := by
        simp [applyHit, hd]
      rw [e1, e2]
      simp only [ok_bind, recsOf]
      refine ihs { ms with ended := addEnded ms.ended h.1.gid } cur true ⟨hinv.record, hinv.started, ?_⟩ (Or.inr (Or.inl rfl))
      simp [hg.gid, mem_addEnded]
    | some d =>
      by_cases hst : h.1.action.isStart = true
      · -- valid start, with or without values
        obtain ⟨d', hev, hact⟩ : ∃ d', evOfE h = .start d' ∧ ∀ m : MS, doAction ti gf h.1 d m = doStart ti gf h.1 d' m := by
          cases ha : h.1.action with
          | start => exact ⟨d, by simp [evOfE, hd, ha], fun m => by simp [doAction, ha]⟩
          | startempty => exact ⟨[], by simp [evOfE, hd, ha], fun m => by simp [doAction, ha]⟩
          | _ => simp [ha, Action.isStart] at hst
        rw [hev]
        simp only [recsOf]
        by_cases hended : g ∈ ms.ended
        · have e2 : applyHit ti gf ms h = doStart ti gf h.1 d' { ms with ended := ms.ended.filter (fun x => x != h.1.gid) } := by
            simp [applyHit, hd, hpar, hg.gid, hended, hst, hact]
          rw [e2]
          exact startCase d' _ rfl rfl rfl rfl (by simp [hg.gid])
        · have e2 : applyHit ti gf ms h = doStart ti gf h.1 d' ms := by
            simp [applyHit, hd, hpar, hg.gid, hended, hact]
          rw [e2]
          exact startCase d' _ rfl rfl rfl rfl hended
      · rcases hg.action with h1 | ⟨hadd | hend, _⟩
        · exact absurd h1 hst
        · -- ordinary line
          have hev : evOfE h = .line d := by simp [evOfE, hd, hadd]
          rw [hev]
          by_cases hended : g ∈ ms.ended
          · have hdead := hinv.ended.1 hended
            subst hdead
            have e2 : applyHit ti gf ms h = .ok ms := by
              simp [applyHit, hd, hpar, hg.gid, hended, hadd, Action.isStart]
            rw [e2]
            simp only [ok_bind, recsOf]
            exact ihs ms cur true hinv (Or.inr (Or.inl rfl))
          · have hdead : dead = false := by
              cases dead with
              | false => rfl
              | true => exact absurd (hinv.ended.2 rfl) hended
            subst hdead
            cases cur with
            | none =>
              rcases hready with h2 | h2 | h2
              · exact absurd rfl h2
              · cases h2
              · have := h2 h (by simp)
                exact absurd this hst
            | some r =>
              have hr : ms.record = ⟨r, path, [], dflt, some g, false⟩ := hinv.record
              have e2 : applyHit ti gf ms h =
                  .ok { ms with record := { ms.record with result := Dict.update d ms.record.result } } := by
                simp [applyHit, hd, hpar, hg.gid, hended, hadd, doAction, doAdd, hr, hg.path]
              rw [e2]
              simp only [ok_bind, recsOf]
              refine ihs { ms with record := { ms.record with result := Dict.update d ms.record.result } } (some (Dict.update d r)) false
                ⟨?_, ?_, hinv.ended⟩ (Or.inl (by simp))
              · simp [hr]
              · intro e; cases e
        · -- end line
          have hev : evOfE h = .badStart := by simp [evOfE, hd, hend]
          rw [hev]
          simp only [recsOf]
          by_cases hended : g ∈ ms.ended
          · have hdead := hinv.ended.1 hended
            subst hdead
            have e2 : applyHit ti gf ms h = .ok ms := by
              simp [applyHit, hd, hpar, hg.gid, hended, hend, Action.isStart]
            rw [e2]
            simp only [ok_bind]
            exact ihs ms cur true hinv (Or.inr (Or.inl rfl))
          · have hdead : dead = false := by
              cases dead with
              | false => rfl
              | true => exact absurd (hinv.ended.2 rfl) hended
            subst hdead
            cases cur with
            | none =>
              rcases hready with h2 | h2 | h2
              · exact absurd rfl h2
              · cases h2
              · have := h2 h (by simp)
                exact absurd this hst
            | some r =>
              have hr : ms.record = ⟨r, path, [], dflt, some g, false⟩ := hinv.record
              have e2 : applyHit ti gf ms h = .ok { ms with ended := addEnded ms.ended h.1.gid } := by
                simp [applyHit, hd, hpar, hg.gid, hended, hend, doAction, doEnd, hr, hg.path]
              rw [e2]
              simp only [ok_bind]
              refine ihs { ms with ended := addEnded ms.ended h.1.gid } (some r) true ⟨hinv.record, hinv.started, ?_⟩ (Or.inr (Or.inl rfl))
              simp [hg.gid, mem_addEnded]

end TTP
