import Verif.Model.Parser
/-!
# Specification vocabulary for the search of matches

Which matches are collected and in which order, written as relations over the log of matches (position and match), without
the dictionary by positions that the parser keeps.
-/

namespace TTP
open Py

/-- The matches `ms` of one line, checked one after the other (`env` to `env'`), leave the log: a match that passes its
checks is kept with its values, a start that fails is kept without values, another line that fails leaves nothing. -/
inductive LineLog (mf : MatchFns) (info : GInfo) (line : LineRx) (start : Nat) :
    List Re.Match → Env → Env → List (Nat × RawHit) → Prop
  | nil (env : Env) : LineLog mf info line start [] env env []
  | keep {m : Re.Match} {ms : List Re.Match} {e0 e1 e2 : Env} {d : Dict Key Val} {log : List (Nat × RawHit)} :
      checkMatch mf line m e0 = .ok (e1, some d) → LineLog mf info line start ms e1 e2 log →
      LineLog mf info line start (m :: ms) e0 e2 ((start + m.start, ⟨info, line, some d⟩) :: log)
  | badStart {m : Re.Match} {ms : List Re.Match} {e0 e1 e2 : Env} {log : List (Nat × RawHit)} :
      checkMatch mf line m e0 = .ok (e1, none) → line.action.isStart = true → LineLog mf info line start ms e1 e2 log →
      LineLog mf info line start (m :: ms) e0 e2 ((start + m.start, ⟨info, line, none⟩) :: log)
  | drop {m : Re.Match} {ms : List Re.Match} {e0 e1 e2 : Env} {log : List (Nat × RawHit)} :
      checkMatch mf line m e0 = .ok (e1, none) → line.action.isStart = false → LineLog mf info line start ms e1 e2 log →
      LineLog mf info line start (m :: ms) e0 e2 log

/-- The log of several lines that are searched for, one after the other, in the text `window` that begins at `start`. -/
inductive LinesLog (mf : MatchFns) (info : GInfo) (window : Str) (start : Nat) :
    List LineRx → Env → Env → List (Nat × RawHit) → Prop
  | nil (env : Env) : LinesLog mf info window start [] env env []
  | cons {R : LineRx} {Rs : List LineRx} {e0 e1 e2 : Env} {l1 l2 : List (Nat × RawHit)} :
      LineLog mf info R start (Re.finditer R.re window) e0 e1 l1 → LinesLog mf info window start Rs e1 e2 l2 →
      LinesLog mf info window start (R :: Rs) e0 e2 (l1 ++ l2)

/-- `s` is the position, in the window, of the first match of any of the lines. -/
def FirstMatch (lines : List LineRx) (window : Str) (s : Nat) : Prop :=
  (∃ R ∈ lines, ∃ m ∈ Re.finditer R.re window, m.start = s) ∧
  ∀ R ∈ lines, ∀ m ∈ Re.finditer R.re window, s ≤ m.start

/-- No line matches in the window. -/
def NoMatch (lines : List LineRx) (window : Str) : Prop := ∀ R ∈ lines, Re.finditer R.re window = []

mutual
/-- The log of a group and its child groups, for groups without `_end_` lines and without defaults on start lines: the
start lines in the window, then, from the first start on, the ordinary lines and the children. -/
inductive GrpLog (mf : MatchFns) (text : Str) : Grp → Nat → Env → Env → List (Nat × RawHit) → Prop
  | absent {info : GInfo} {startL normalL : List LineRx} {children : List Grp} {start : Nat} {env : Env} :
      NoMatch startL (slice text start none) → GrpLog mf text (.mk info startL normalL [] false children) start env env []
  | found {info : GInfo} {startL normalL : List LineRx} {children : List Grp} {start s : Nat} {e0 e1 e2 e3 : Env}
      {l1 l2 l3 : List (Nat × RawHit)} :
      FirstMatch startL (slice text start none) s →
      LinesLog mf info (slice text start none) start startL e0 e1 l1 →
      LinesLog mf info (slice text (start + s) none) (start + s) normalL e1 e2 l2 →
      GrpsLog mf text children (start + s) e2 e3 l3 →
      GrpLog mf text (.mk info startL normalL [] false children) start e0 e3 (l1 ++ l2 ++ l3)
/-- The log of several groups in the same window. -/
inductive GrpsLog (mf : MatchFns) (text : Str) : List Grp → Nat → Env → Env → List (Nat × RawHit) → Prop
  | nil (start : Nat) (env : Env) : GrpsLog mf text [] start env env []
  | cons {g : Grp} {gs : List Grp} {start : Nat} {e0 e1 e2 : Env} {l1 l2 : List (Nat × RawHit)} :
      GrpLog mf text g start e0 e1 l1 → GrpsLog mf text gs start e1 e2 l2 →
      GrpsLog mf text (g :: gs) start e0 e2 (l1 ++ l2)
end

mutual
/-- no `_end_` lines and no defaults on start lines in the group and below; the group has start lines -/
def Grp.Plain : Grp → Prop
  | .mk _ startL _ endL d children => startL ≠ [] ∧ endL = [] ∧ d = false ∧ PlainAll children
/-- the same for all groups of a list -/
def PlainAll : List Grp → Prop
  | [] => True
  | g :: gs => g.Plain ∧ PlainAll gs
end

mutual
/-- the group and all groups below it -/
def Grp.infos : Grp → List GInfo
  | .mk info _ _ _ _ children => info :: infosAll children
/-- all groups of a list and below -/
def infosAll : List Grp → List GInfo
  | [] => []
  | g :: gs => g.infos ++ infosAll gs
end

/-- the match `h` is recorded at position `p` -/
def Recorded (r : RawDict) (p : Nat) (h : RawHit) : Prop := ∃ hs, (p, hs) ∈ r ∧ h ∈ hs

/-- the matches of the log at one position, in order -/
def atPos (log : List (Nat × RawHit)) (p : Nat) : List RawHit := (log.filter (fun e => e.1 == p)).map Prod.snd

/-- `f` rejects the value in the environment and leaves `env'` -/
def Rejects (mf : MatchFns) (f : FnCall) (env : Env) (v : Val) (env' : Env) : Prop :=
  ∃ v', mf f env v = .ok (env', v', .no)

/-- The functions pass the value on: from `(env, v)` to `(env', v')`; `fields` are the additional fields they asked for, in
order. -/
inductive Passes (mf : MatchFns) : List FnCall → Env → Val → Env → Val → List (Dict Key Val) → Prop
  | nil (env : Env) (v : Val) : Passes mf [] env v env v []
  | plain {f : FnCall} {fs : List FnCall} {e0 e1 e2 : Env} {v0 v1 v2 : Val} {fl : Flag} {out : List (Dict Key Val)} :
      mf f e0 v0 = .ok (e1, v1, fl) → fl = .nothing ∨ fl = .yes → Passes mf fs e1 v1 e2 v2 out →
      Passes mf (f :: fs) e0 v0 e2 v2 out
  | field {f : FnCall} {fs : List FnCall} {e0 e1 e2 : Env} {v0 v1 v2 : Val} {d : Dict Key Val} {out : List (Dict Key Val)} :
      mf f e0 v0 = .ok (e1, v1, .newField d) → Passes mf fs e1 v1 e2 v2 out →
      Passes mf (f :: fs) e0 v0 e2 v2 (d :: out)

end TTP
