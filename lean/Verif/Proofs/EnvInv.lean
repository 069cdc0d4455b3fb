import Verif.Model.Object
import Verif.Proofs.Machine
import Verif.Proofs.Parser
/-!
# Invariants of the variables

What every match function and group function keeps of the variables is kept by the parsing of a text.
-/

namespace TTP
open Py Spec

/-- match functions keep `P` of the variables and global variables -/
def KeepsM (mf : MatchFns) (P : Dict Str Val → Dict Str Val → Prop) : Prop :=
  ∀ f env v env' v' fl, P env.vars env.gvars → mf f env v = .ok (env', v', fl) → P env'.vars env'.gvars

/-- group functions keep `P` of the variables and global variables -/
def KeepsG (gf : GroupFns) (P : Dict Str Val → Dict Str Val → Prop) : Prop :=
  ∀ f ms v ms' v' fl, P ms.vars ms.gvars → gf f ms v = .ok (ms', v', fl) → P ms'.vars ms'.gvars

section Search
variable (mf : MatchFns) (P : Dict Str Val → Dict Str Val → Prop) (hk : KeepsM mf P)
include hk

theorem runMatchFns_env (fs : List FnCall) (env : Env) (v : Val) (fl : Option (Dict Key Val))
    (r : Env × Option (Val × Option (Dict Key Val))) (hp : P env.vars env.gvars)
    (h : runMatchFns mf fs env v fl = .ok r) : P r.1.vars r.1.gvars := by
  induction fs generalizing env v fl with
  | nil => simp only [runMatchFns, pure_ok, Except.ok.injEq] at h; rw [← h]; exact hp
  | cons f fs ih =>
    simp only [runMatchFns, bind_ok_iff] at h
    obtain ⟨⟨e1, v1, f1⟩, h1, h2⟩ := h
    have hp1 := hk _ _ _ _ _ _ hp h1
    dsimp only at h2
    split at h2
    · simp only [pure_ok, Except.ok.injEq] at h2; rw [← h2]; exact hp1
    · exact ih _ _ _ hp1 h2

theorem checkVars_env (vars : Dict Str (Str × List FnCall)) (vals : List (Str × Str)) (env : Env) (acc : Dict Key Val)
    (r : Env × Option (Dict Key Val)) (hp : P env.vars env.gvars)
    (h : checkVars mf vars vals env acc = .ok r) : P r.1.vars r.1.gvars := by
  induction vals generalizing env acc with
  | nil => simp only [checkVars, pure_ok, Except.ok.injEq] at h; rw [← h]; exact hp
  | cons x vals ih =>
    obtain ⟨n, t⟩ := x
    simp only [checkVars] at h
    split at h
    · simp at h
    · simp only [bind_ok_iff] at h
      obtain ⟨⟨e1, o⟩, h1, h2⟩ := h
      have hp1 := runMatchFns_env mf P hk _ _ _ _ _ hp h1
      dsimp only at h2
      split at h2
      · simp only [pure_ok, Except.ok.injEq] at h2; rw [← h2]; exact hp1
      · exact ih _ _ hp1 h2

theorem checkMatches_env (info : GInfo) (line : LineRx) (start : Nat) (ms : List Re.Match) (env : Env) (r0 : RawDict)
    (r : Env × RawDict) (hp : P env.vars env.gvars)
    (h : checkMatches mf info line start ms env r0 = .ok r) : P r.1.vars r.1.gvars := by
  induction ms generalizing env r0 with
  | nil => simp only [checkMatches, pure_ok, Except.ok.injEq] at h; rw [← h]; exact hp
  | cons m ms ih =>
    simp only [checkMatches, bind_ok_iff] at h
    obtain ⟨⟨e1, o⟩, h1, h2⟩ := h
    have hp1 := checkVars_env mf P hk _ _ _ _ _ hp h1
    dsimp only at h2
    split at h2
    · exact ih _ _ hp1 h2
    · exact ih _ _ hp1 h2

theorem runStarts_env (text : Str) (info : GInfo) (start : Nat) (stop : Option Nat) (Rs : List LineRx) (si : StartInfo)
    (env : Env) (r0 : RawDict) (r : StartInfo × Env × RawDict) (hp : P env.vars env.gvars)
    (h : runStarts mf text info start stop Rs si env r0 = .ok r) : P r.2.1.vars r.2.1.gvars := by
  induction Rs generalizing si env r0 with
  | nil => simp only [runStarts, pure_ok, Except.ok.injEq] at h; rw [← h]; exact hp
  | cons R Rs ih =>
    simp only [runStarts] at h
    split at h
    · exact ih _ _ _ hp h
    · simp only [bind_ok_iff] at h
      obtain ⟨⟨e1, r1⟩, h1, h2⟩ := h
      exact ih _ _ _ (checkMatches_env mf P hk _ _ _ _ _ _ _ hp h1) h2

theorem runEnds_env (text : Str) (info : GInfo) (start : Nat) (stop : Option Nat) (se : Nat) (Rs : List LineRx) (e : Option Nat)
    (env : Env) (r0 : RawDict) (r : Option Nat × Env × RawDict) (hp : P env.vars env.gvars)
    (h : runEnds mf text info start stop se Rs e env r0 = .ok r) : P r.2.1.vars r.2.1.gvars := by
  induction Rs generalizing e env r0 with
  | nil => simp only [runEnds, pure_ok, Except.ok.injEq] at h; rw [← h]; exact hp
  | cons R Rs ih =>
    simp only [runEnds] at h
    split at h
    · exact ih _ _ _ hp h
    · simp only [bind_ok_iff] at h
      obtain ⟨⟨e1, r1⟩, h1, h2⟩ := h
      exact ih _ _ _ (checkMatches_env mf P hk _ _ _ _ _ _ _ hp h1) h2

theorem runNormals_env (text : Str) (info : GInfo) (start : Nat) (stop : Option Nat) (Rs : List LineRx)
    (env : Env) (r0 : RawDict) (r : Env × RawDict) (hp : P env.vars env.gvars)
    (h : runNormals mf text info start stop Rs env r0 = .ok r) : P r.1.vars r.1.gvars := by
  induction Rs generalizing env r0 with
  | nil => simp only [runNormals, pure_ok, Except.ok.injEq] at h; rw [← h]; exact hp
  | cons R Rs ih =>
    simp only [runNormals, bind_ok_iff] at h
    obtain ⟨⟨e1, r1⟩, h1, h2⟩ := h
    exact ih _ _ (checkMatches_env mf P hk _ _ _ _ _ _ _ hp h1) h2

end Search

mutual
theorem runRe_env (mf : MatchFns) (P : Dict Str Val → Dict Str Val → Prop) (hk : KeepsM mf P) (text : Str) :
    ∀ (g : Grp) (start : Nat) (stop : Option Nat) (env : Env) (r0 : RawDict) (r : Env × RawDict),
      P env.vars env.gvars → runRe mf text g start stop env r0 = .ok r → P r.1.vars r.1.gvars
  | .mk info startL normalL endL hasDefault children, start, stop, env, r0, r, hp, h => by
    simp only [runRe, bind_ok_iff] at h
    obtain ⟨⟨si, e1, r1⟩, h1, h⟩ := h
    have hp1 := runStarts_env mf P hk _ _ _ _ _ _ _ _ _ hp h1
    dsimp only at h hp1
    split at h
    · exact runDefaultChildren_env mf P hk text _ children _ _ _ _ _ hp1 h
    · simp only [bind_ok_iff] at h
      obtain ⟨⟨e, e2, r2⟩, h2, h⟩ := h
      have hp2 := runEnds_env mf P hk _ _ _ _ _ _ _ _ _ _ hp1 h2
      dsimp only at h hp2
      obtain ⟨⟨e3, r3⟩, h3, h⟩ := h
      have hp3 := runNormals_env mf P hk _ _ _ _ _ _ _ _ hp2 h3
      exact runChildren_env mf P hk text children _ _ _ _ _ hp3 h
theorem runChildren_env (mf : MatchFns) (P : Dict Str Val → Dict Str Val → Prop) (hk : KeepsM mf P) (text : Str) :
    ∀ (gs : List Grp) (start : Nat) (stop : Option Nat) (env : Env) (r0 : RawDict) (r : Env × RawDict),
      P env.vars env.gvars → runChildren mf text gs start stop env r0 = .ok r → P r.1.vars r.1.gvars
  | [], start, stop, env, r0, r, hp, h => by
    simp only [runChildren, pure_ok, Except.ok.injEq] at h; rw [← h]; exact hp
  | g :: gs, start, stop, env, r0, r, hp, h => by
    simp only [runChildren, bind_ok_iff] at h
    obtain ⟨⟨e1, r1⟩, h1, h⟩ := h
    exact runChildren_env mf P hk text gs _ _ _ _ _ (runRe_env mf P hk text g _ _ _ _ _ hp h1) h
theorem runDefaultChildren_env (mf : MatchFns) (P : Dict Str Val → Dict Str Val → Prop) (hk : KeepsM mf P) (text : Str)
    (b : Bool) :
    ∀ (gs : List Grp) (start : Nat) (stop : Option Nat) (env : Env) (r0 : RawDict) (r : Env × RawDict),
      P env.vars env.gvars → runDefaultChildren mf text b gs start stop env r0 = .ok r → P r.1.vars r.1.gvars
  | [], start, stop, env, r0, r, hp, h => by
    simp only [runDefaultChildren, pure_ok, Except.ok.injEq] at h; rw [← h]; exact hp
  | g :: gs, start, stop, env, r0, r, hp, h => by
    simp only [runDefaultChildren] at h
    split at h
    · simp only [bind_ok_iff] at h
      obtain ⟨⟨e1, r1⟩, h1, h⟩ := h
      exact runDefaultChildren_env mf P hk text b gs _ _ _ _ _ (runRe_env mf P hk text g _ _ _ _ _ hp h1) h
    · simp only [pure_ok, ok_bind] at h
      exact runDefaultChildren_env mf P hk text b gs _ _ _ _ _ hp h
end

theorem runGroups_env (mf : MatchFns) (P : Dict Str Val → Dict Str Val → Prop) (hk : KeepsM mf P) (text : Str)
    (gs : List Grp) (env : Env) (r : Env × List RawDict) (hp : P env.vars env.gvars)
    (h : runGroups mf text gs env = .ok r) : P r.1.vars r.1.gvars := by
  induction gs generalizing env r with
  | nil => simp only [runGroups, pure_ok, Except.ok.injEq] at h; rw [← h]; exact hp
  | cons g gs ih =>
    simp only [runGroups, bind_ok_iff] at h
    obtain ⟨⟨e1, r1⟩, h1, ⟨e2, r2⟩, h2, h⟩ := h
    simp only [pure_ok, Except.ok.injEq] at h
    rw [← h]
    exact ih e1 (e2, r2) (runRe_env mf P hk _ _ _ _ _ _ _ hp h1) h2

section Machine
variable (ti : Bool) (gf : GroupFns) (P : Dict Str Val → Dict Str Val → Prop) (hk : KeepsG gf P)

theorem preMerge_env (ms : MS) (d : Dict Key Val) (r : MS × Val)
    (h : preMerge ti ms d = .ok r) : r.1.vars = ms.vars ∧ r.1.gvars = ms.gvars := by
  unfold preMerge at h
  split at h
  · simp only [bind_ok_iff] at h
    obtain ⟨⟨c, rs, p⟩, _, h1⟩ := h
    dsimp only at h1
    split at h1
    · simp only [bind_ok_iff] at h1
      obtain ⟨⟨a, b⟩, _, h1⟩ := h1
      simp only [pure_ok, Except.ok.injEq] at h1
      rw [← h1]; exact ⟨rfl, rfl⟩
    · simp only [pure_ok, Except.ok.injEq] at h1
      rw [← h1]; exact ⟨rfl, rfl⟩
  · simp only [pure_ok, Except.ok.injEq] at h
    rw [← h]; exact ⟨rfl, rfl⟩

theorem postPath_env (ms : MS) (v : Val) (r : MS × Option (Val × List PItem))
    (h : postPath ms v = .ok r) : r.1.vars = ms.vars ∧ r.1.gvars = ms.gvars := by
  simp only [postPath, bind_ok_iff] at h
  obtain ⟨⟨c, rs, p⟩, _, h3⟩ := h
  dsimp only at h3
  split at h3
  · simp only [pure_ok, Except.ok.injEq] at h3; rw [← h3]; exact ⟨rfl, rfl⟩
  · simp only [pure_ok, Except.ok.injEq] at h3; rw [← h3]; exact ⟨rfl, rfl⟩

include hk

theorem runFns_env (fs : List FnCall) (ms : MS) (v : Val) (r : MS × Option Val) (hp : P ms.vars ms.gvars)
    (h : runFns gf fs ms v = .ok r) : P r.1.vars r.1.gvars := by
  induction fs generalizing ms v with
  | nil => simp only [runFns, pure_ok, Except.ok.injEq] at h; rw [← h]; exact hp
  | cons f fs ih =>
    simp only [runFns, bind_ok_iff] at h
    obtain ⟨⟨ms1, v1, fl⟩, h1, h2⟩ := h
    have e := hk _ _ _ _ _ _ hp h1
    dsimp only at h2
    split at h2
    · simp only [pure_ok, Except.ok.injEq] at h2; rw [← h2]; exact e
    · exact ih _ _ e h2

theorem processgrp_env (ms : MS) (r : MS × Option (Val × List PItem)) (hp : P ms.vars ms.gvars)
    (h : processgrp ti gf ms = .ok r) : P r.1.vars r.1.gvars := by
  simp only [processgrp, bind_ok_iff] at h
  obtain ⟨⟨ms1, v1⟩, h1, ⟨ms2, out⟩, h2, h3⟩ := h
  have e1 := preMerge_env ti _ _ _ h1
  have hp1 : P ms1.vars ms1.gvars := by dsimp only at e1; rw [e1.1, e1.2]; exact hp
  have e2 := runFns_env gf P hk _ _ _ _ hp1 h2
  dsimp only at e2 h3
  split at h3
  · simp only [pure_ok, Except.ok.injEq] at h3; rw [← h3]; exact e2
  · have e3 := postPath_env _ _ _ h3
    rw [e3.1, e3.2]; exact e2

theorem flush_env (ms ms' : MS) (hp : P ms.vars ms.gvars) (h : flush ti gf ms = .ok ms') : P ms'.vars ms'.gvars := by
  simp only [flush, bind_ok_iff] at h
  obtain ⟨⟨ms1, out⟩, h1, h2⟩ := h
  have e := processgrp_env ti gf P hk _ _ hp h1
  dsimp only at e h2
  split at h2
  · simp only [pure_ok, Except.ok.injEq] at h2; rw [← h2]; exact e
  · simp only [bind_ok_iff] at h2
    obtain ⟨r, _, h2⟩ := h2
    simp only [pure_ok, Except.ok.injEq] at h2; rw [← h2]; exact e

theorem doStart_env (re : RE) (d : Dict Key Val) (ms ms' : MS) (hp : P ms.vars ms.gvars)
    (h : doStart ti gf re d ms = .ok ms') : P ms'.vars ms'.gvars := by
  simp only [doStart, bind_ok_iff] at h
  obtain ⟨m, h1, h2⟩ := h
  have e := flush_env ti gf P hk { ms with started := trace re ms.started } _ hp h1
  simp only [pure_ok, Except.ok.injEq] at h2; rw [← h2]; exact e

theorem lateStart_env (re : RE) (d : Dict Key Val) (ms ms' : MS) (hp : P ms.vars ms.gvars)
    (h : lateStart ti gf re d ms = .ok ms') : P ms'.vars ms'.gvars := by
  unfold lateStart at h
  split at h
  · simp only [bind_ok_iff] at h
    obtain ⟨m, h1, h2⟩ := h
    have e := doStart_env ti gf P hk _ _ _ _ hp h1
    simp only [pure_ok, Except.ok.injEq] at h2; rw [← h2]; exact e
  · simp only [pure_ok, Except.ok.injEq] at h; rw [← h]; exact hp

theorem doAction_env (re : RE) (d : Dict Key Val) (ms ms' : MS) (hp : P ms.vars ms.gvars)
    (h : doAction ti gf re d ms = .ok ms') : P ms'.vars ms'.gvars := by
  unfold doAction at h
  split at h
  · exact doStart_env ti gf P hk _ _ _ _ hp h
  · exact doStart_env ti gf P hk _ _ _ _ hp h
  · unfold doAdd at h
    split at h
    · simp only [pure_ok, Except.ok.injEq] at h; rw [← h]; exact hp
    · exact lateStart_env ti gf P hk _ _ _ _ hp h
  · unfold doJoin at h
    split at h
    · simp only [bind_ok_iff] at h
      obtain ⟨m, _, h⟩ := h
      simp only [pure_ok, Except.ok.injEq] at h; rw [← h]; exact hp
    · exact lateStart_env ti gf P hk _ _ _ _ hp h
  · unfold doEnd at h
    split at h
    · split at h
      · simp at h
      · split at h
        · simp only [pure_ok, Except.ok.injEq] at h; rw [← h]; exact hp
        · simp only [pure_ok, Except.ok.injEq] at h; rw [← h]; exact hp
    · simp only [pure_ok, Except.ok.injEq] at h; rw [← h]; exact hp

theorem applyHit_env (ms ms' : MS) (h : Hit) (hp : P ms.vars ms.gvars) (e : applyHit ti gf ms h = .ok ms') :
    P ms'.vars ms'.gvars := by
  unfold applyHit at e
  split at e
  · simp only [pure_ok, Except.ok.injEq] at e; rw [← e]; exact hp
  · split at e
    · simp only [pure_ok, Except.ok.injEq] at e; rw [← e]; exact hp
    · split at e
      · split at e
        · refine doAction_env ti gf P hk _ _ _ _ ?_ e; exact hp
        · simp only [pure_ok, Except.ok.injEq] at e; rw [← e]; exact hp
      · exact doAction_env ti gf P hk _ _ _ _ hp e

theorem steps_env (raw : List (List Hit)) (ms ms' : MS) (hp : P ms.vars ms.gvars) (e : steps ti gf ms raw = .ok ms') :
    P ms'.vars ms'.gvars := by
  induction raw generalizing ms with
  | nil => simp only [steps, pure_ok, Except.ok.injEq] at e; rw [← e]; exact hp
  | cons hs raw ih =>
    simp only [steps, bind_ok_iff] at e
    obtain ⟨m, h1, h2⟩ := e
    unfold step at h1
    split at h1
    · simp at h1
    · exact ih _ (applyHit_env ti gf P hk _ _ _ hp h1) h2

omit hk in
theorem saveVarsAt_env (ms ms' : MS) (p : Str) (names : List Str) (e : saveVarsAt ti ms p names = .ok ms') :
    ms'.vars = ms.vars ∧ ms'.gvars = ms.gvars := by
  unfold saveVarsAt at e
  split at e
  · simp only [pure_ok, Except.ok.injEq] at e; rw [← e]; exact ⟨rfl, rfl⟩
  · simp only [bind_ok_iff] at e
    obtain ⟨⟨c, rs, q⟩, _, e⟩ := e
    dsimp only at e
    split at e
    · simp only [bind_ok_iff] at e
      obtain ⟨r, _, e⟩ := e
      simp only [pure_ok, Except.ok.injEq] at e; rw [← e]; exact ⟨rfl, rfl⟩
    · simp only [pure_ok, Except.ok.injEq] at e; rw [← e]; exact ⟨rfl, rfl⟩

omit hk in
theorem saveVarsAll_env (l : List (Str × List Str)) (ms ms' : MS) (e : saveVarsAll ti ms l = .ok ms') :
    ms'.vars = ms.vars ∧ ms'.gvars = ms.gvars := by
  induction l generalizing ms with
  | nil => simp only [saveVarsAll, pure_ok, Except.ok.injEq] at e; rw [← e]; exact ⟨rfl, rfl⟩
  | cons x l ih =>
    obtain ⟨p, n⟩ := x
    simp only [saveVarsAll, bind_ok_iff] at e
    obtain ⟨m, h1, h2⟩ := e
    have a := saveVarsAt_env ti _ _ _ _ h1
    have b := ih _ h2
    exact ⟨b.1.trans a.1, b.2.trans a.2⟩

theorem makeResults_env (vtr : Dict Str (List Str)) (vars gvars : Dict Str Val) (raw : List (List (List Hit))) (main : Val)
    (ms : MS) (hp : P vars gvars) (e : makeResults ti gf vtr vars gvars raw main = .ok ms) : P ms.vars ms.gvars := by
  simp only [makeResults] at e
  have key : ∀ m1, (m1.vars = vars ∧ m1.gvars = gvars) →
      (steps ti gf m1 raw.flatten >>= fun m2 => flush ti gf m2) = .ok ms → P ms.vars ms.gvars := by
    intro m1 h1 h
    rw [bind_ok_iff] at h
    obtain ⟨m2, h2, h3⟩ := h
    refine flush_env ti gf P hk _ _ (steps_env ti gf P hk _ _ _ ?_ h2) h3
    rw [h1.1, h1.2]; exact hp
  split at e
  · rw [pure_ok, ok_bind] at e
    exact key _ ⟨rfl, rfl⟩ e
  · rw [bind_ok_iff] at e
    obtain ⟨m1, h1, h2⟩ := e
    refine key m1 ?_ h2
    simp only [saveVars, bind_ok_iff] at h1
    obtain ⟨m0, h0, h1⟩ := h1
    simp only [pure_ok, Except.ok.injEq] at h1
    rw [← h1]
    exact saveVarsAll_env ti _ _ _ h0

end Machine

/-- What all functions keep of the variables holds after a text is parsed. -/
theorem parseText_env (mf : MatchFns) (gf : GroupFns) (P : Dict Str Val → Dict Str Val → Prop) (hm : KeepsM mf P)
    (hg : KeepsG gf P) (ti : Bool) (vtr : Dict Str (List Str)) (groups : List Grp) (text : Str) (env : Env) (main : Val)
    (ms : MS) (hp : P env.vars env.gvars) (h : parseText mf gf ti vtr groups text env main = .ok ms) :
    P ms.vars ms.gvars := by
  simp only [parseText, bind_ok_iff] at h
  obtain ⟨⟨e1, raws⟩, h1, h2⟩ := h
  exact makeResults_env ti gf P hg _ _ _ _ _ _ (runGroups_env mf P hm _ _ _ _ hp h1) h2

end TTP
