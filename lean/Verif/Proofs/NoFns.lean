import Verif.Proofs.EnvInv
/-! # Lemmas: groups without functions leave the variables alone -/

namespace TTP
open Py Spec

/-- no functions to run, and these variables -/
def NoFns (vars gvars : Dict Str Val) (ms : MS) : Prop := ms.record.functions = [] ∧ ms.vars = vars ∧ ms.gvars = gvars

section
variable (ti : Bool) (gf : GroupFns) (vars gvars : Dict Str Val)

theorem flush_noFns (ms ms' : MS) (hq : NoFns vars gvars ms) (h : flush ti gf ms = .ok ms') : NoFns vars gvars ms' := by
  have key : ∀ r, processgrp ti gf ms = .ok r → NoFns vars gvars r.1 := by
    intro r h
    simp only [processgrp, bind_ok_iff] at h
    obtain ⟨⟨ms1, v1⟩, h1, ⟨ms2, out⟩, h2, h3⟩ := h
    have hrec : ms1.record = ms.record := by
      unfold preMerge at h1
      split at h1
      · simp only [bind_ok_iff] at h1
        obtain ⟨⟨c, rs, p⟩, _, h1⟩ := h1
        dsimp only at h1
        split at h1
        · simp only [bind_ok_iff] at h1
          obtain ⟨⟨a, b⟩, _, h1⟩ := h1
          simp only [pure_ok, Except.ok.injEq, Prod.mk.injEq] at h1
          rw [← h1.1]
        · simp only [pure_ok, Except.ok.injEq, Prod.mk.injEq] at h1
          rw [← h1.1]
      · simp only [pure_ok, Except.ok.injEq, Prod.mk.injEq] at h1
        rw [← h1.1]
    have henv := preMerge_env ti _ _ _ h1
    dsimp only at henv h2 h3
    rw [hrec, hq.1] at h2
    simp only [runFns, pure_ok, Except.ok.injEq, Prod.mk.injEq] at h2
    obtain ⟨rfl, rfl⟩ := h2
    have hpe := postPath_env _ _ _ h3
    have hpr : r.1.record = ms1.record := by
      simp only [postPath, bind_ok_iff] at h3
      obtain ⟨⟨c, rs, p⟩, _, h3⟩ := h3
      dsimp only at h3
      split at h3
      · simp only [pure_ok, Except.ok.injEq] at h3; rw [← h3]
      · simp only [pure_ok, Except.ok.injEq] at h3; rw [← h3]
    exact ⟨by rw [hpr, hrec]; exact hq.1, by rw [hpe.1, henv.1]; exact hq.2.1, by rw [hpe.2, henv.2]; exact hq.2.2⟩
  simp only [flush, bind_ok_iff] at h
  obtain ⟨⟨ms1, out⟩, h1, h2⟩ := h
  have e := key _ h1
  dsimp only at e h2
  split at h2
  · simp only [pure_ok, Except.ok.injEq] at h2; rw [← h2]; exact e
  · simp only [bind_ok_iff] at h2
    obtain ⟨r, _, h2⟩ := h2
    simp only [pure_ok, Except.ok.injEq] at h2; rw [← h2]; exact e

theorem doStart_noFns (re : RE) (hre : re.funcs = []) (d : Dict Key Val) (ms ms' : MS) (hq : NoFns vars gvars ms)
    (h : doStart ti gf re d ms = .ok ms') : NoFns vars gvars ms' := by
  simp only [doStart, bind_ok_iff] at h
  obtain ⟨m, h1, h2⟩ := h
  have e := flush_noFns ti gf vars gvars { ms with started := trace re ms.started } _ hq h1
  simp only [pure_ok, Except.ok.injEq] at h2
  rw [← h2]
  exact ⟨hre, e.2⟩

theorem lateStart_noFns (re : RE) (hre : re.funcs = []) (d : Dict Key Val) (ms ms' : MS) (hq : NoFns vars gvars ms)
    (h : lateStart ti gf re d ms = .ok ms') : NoFns vars gvars ms' := by
  unfold lateStart at h
  split at h
  · simp only [bind_ok_iff] at h
    obtain ⟨m, h1, h2⟩ := h
    have e := doStart_noFns ti gf vars gvars re hre _ _ _ hq h1
    simp only [pure_ok, Except.ok.injEq] at h2; rw [← h2]; exact e
  · simp only [pure_ok, Except.ok.injEq] at h; rw [← h]; exact hq

theorem doAction_noFns (re : RE) (hre : re.funcs = []) (d : Dict Key Val) (ms ms' : MS) (hq : NoFns vars gvars ms)
    (h : doAction ti gf re d ms = .ok ms') : NoFns vars gvars ms' := by
  unfold doAction at h
  split at h
  · exact doStart_noFns ti gf vars gvars re hre _ _ _ hq h
  · exact doStart_noFns ti gf vars gvars re hre _ _ _ hq h
  · unfold doAdd at h
    split at h
    · simp only [pure_ok, Except.ok.injEq] at h; rw [← h]; exact hq
    · exact lateStart_noFns ti gf vars gvars re hre _ _ _ hq h
  · unfold doJoin at h
    split at h
    · simp only [bind_ok_iff] at h
      obtain ⟨m, _, h⟩ := h
      simp only [pure_ok, Except.ok.injEq] at h; rw [← h]; exact hq
    · exact lateStart_noFns ti gf vars gvars re hre _ _ _ hq h
  · unfold doEnd at h
    split at h
    · split at h
      · simp at h
      · split at h
        · simp only [pure_ok, Except.ok.injEq] at h; rw [← h]; exact hq
        · simp only [pure_ok, Except.ok.injEq] at h; rw [← h]; exact hq
    · simp only [pure_ok, Except.ok.injEq] at h; rw [← h]; exact hq

theorem applyHit_noFns (ms ms' : MS) (h : Hit) (hre : h.1.funcs = []) (hq : NoFns vars gvars ms) (e : applyHit ti gf ms h = .ok ms') :
    NoFns vars gvars ms' := by
  unfold applyHit at e
  split at e
  · simp only [pure_ok, Except.ok.injEq] at e; rw [← e]; exact hq
  · split at e
    · simp only [pure_ok, Except.ok.injEq] at e; rw [← e]; exact hq
    · split at e
      · split at e
        · refine doAction_noFns ti gf vars gvars _ hre _ _ _ ?_ e; exact hq
        · simp only [pure_ok, Except.ok.injEq] at e; rw [← e]; exact hq
      · exact doAction_noFns ti gf vars gvars _ hre _ _ _ hq e

theorem steps_noFns (hits : List Hit) (hre : ∀ h ∈ hits, h.1.funcs = []) (ms ms' : MS) (hq : NoFns vars gvars ms)
    (e : steps ti gf ms (hits.map ([·])) = .ok ms') : NoFns vars gvars ms' := by
  induction hits generalizing ms with
  | nil => simp only [List.map_nil, steps, pure_ok, Except.ok.injEq] at e; rw [← e]; exact hq
  | cons h hits ih =>
    simp only [List.map_cons, steps, bind_ok_iff] at e
    obtain ⟨m, h1, h2⟩ := e
    simp only [step, select] at h1
    exact ih (fun x hx => hre x (by simp [hx])) m (applyHit_noFns ti gf vars gvars _ _ _ (hre h (by simp)) hq h1) h2

theorem makeResults_noFns (hits : List Hit) (hre : ∀ h ∈ hits, h.1.funcs = []) (main : Val) (ms : MS)
    (e : makeResults ti gf [] vars gvars [hits.map ([·])] main = .ok ms) : ms.vars = vars ∧ ms.gvars = gvars := by
  have hsv : saveVars ti [] ⟨main, [], [], Record.empty, [], vars, gvars⟩ = .ok ⟨main, [], [], Record.empty, [], vars, gvars⟩ := by
    simp [saveVars, sorted, saveVarsAll, pure_ok, ok_bind]
  simp only [makeResults, List.isEmpty_cons, Bool.false_eq_true, if_false, hsv, List.flatten_cons, List.flatten_nil, List.append_nil, ok_bind, bind_ok_iff] at e
  obtain ⟨m, h1, h2⟩ := e
  have := steps_noFns ti gf vars gvars hits hre _ _ ⟨rfl, rfl, rfl⟩ h1
  exact (flush_noFns ti gf vars gvars _ _ this h2).2

end
end TTP
