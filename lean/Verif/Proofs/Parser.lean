import Verif.Spec.Parser
import Verif.Proofs.Machine
import Verif.Proofs.Regex
/-! # Facts about the search of matches -/

namespace TTP
open Py

/-! ### the dictionary by positions -/

theorem get?_addRaw (r : RawDict) (p : Nat) (h : RawHit) (q : Nat) :
    Dict.get? (addRaw r p h) q = if p = q then some ((Dict.get? r p).getD [] ++ [h]) else Dict.get? r q := by
  unfold addRaw; rw [Dict.get?_set]

/-- the dictionary after a log of matches -/
def logDict (r : RawDict) (log : List (Nat × RawHit)) : RawDict := log.foldl (fun r e => addRaw r e.1 e.2) r

theorem logDict_append (r : RawDict) (a b : List (Nat × RawHit)) : logDict r (a ++ b) = logDict (logDict r a) b := by
  simp [logDict, List.foldl_append]

theorem logDict_getD (r : RawDict) (log : List (Nat × RawHit)) (q : Nat) :
    (Dict.get? (logDict r log) q).getD [] = (Dict.get? r q).getD [] ++ atPos log q := by
  induction log generalizing r with
  | nil => simp [logDict, atPos]
  | cons e log ih =>
    have : logDict r (e :: log) = logDict (addRaw r e.1 e.2) log := rfl
    rw [this, ih, get?_addRaw]
    unfold atPos
    by_cases h : e.1 = q
    · subst h; simp
    · simp [h, beq_iff_eq]

/-- no position twice, no position without matches -/
def Good (r : RawDict) : Prop := Dict.WF r ∧ ∀ kv ∈ r, kv.2 ≠ []

theorem good_nil : Good [] := ⟨by simp [Dict.WF, Dict.keys], by simp⟩

theorem mem_set_or {K V : Type} [DecidableEq K] (d : Dict K V) (k : K) (v : V) (kv : K × V) (h : kv ∈ Dict.set d k v) :
    kv = (k, v) ∨ kv ∈ d := by
  induction d with
  | nil => simp only [Dict.set, List.mem_singleton] at h; exact Or.inl h
  | cons a d ih =>
    obtain ⟨k', v'⟩ := a
    simp only [Dict.set] at h
    split at h
    · rename_i e
      rcases List.mem_cons.1 h with h | h
      · left; rw [h, e]
      · right; exact List.mem_cons_of_mem _ h
    · rcases List.mem_cons.1 h with h | h
      · right; rw [h]; exact List.mem_cons_self
      · rcases ih h with h | h
        · exact Or.inl h
        · exact Or.inr (List.mem_cons_of_mem _ h)

theorem good_set (r : RawDict) (p : Nat) (hs : List RawHit) (hne : hs ≠ []) (hg : Good r) : Good (Dict.set r p hs) := by
  refine ⟨Dict.WF_set _ _ _ hg.1, fun kv hkv => ?_⟩
  rcases mem_set_or _ _ _ _ hkv with rfl | h
  · exact hne
  · exact hg.2 kv h

theorem good_addRaw (r : RawDict) (p : Nat) (h : RawHit) (hg : Good r) : Good (addRaw r p h) :=
  good_set r p _ (by simp) hg

theorem good_logDict (r : RawDict) (log : List (Nat × RawHit)) (hg : Good r) : Good (logDict r log) := by
  induction log generalizing r with
  | nil => exact hg
  | cons e log ih => exact ih _ (good_addRaw r e.1 e.2 hg)

/-- positions and matches of the dictionary after a log -/
theorem mem_logDict (log : List (Nat × RawHit)) (p : Nat) (hs : List RawHit) :
    (p, hs) ∈ logDict [] log ↔ hs = atPos log p ∧ hs ≠ [] := by
  have hg := good_logDict [] log good_nil
  have hd := logDict_getD [] log p
  simp only [Dict.get?_nil, Option.getD_none, List.nil_append] at hd
  constructor
  · intro h
    have := Dict.get?_of_mem _ _ _ hg.1 h
    rw [this] at hd
    exact ⟨by simpa using hd, hg.2 _ h⟩
  · rintro ⟨h1, h2⟩
    apply Dict.mem_of_get?
    cases hc : Dict.get? (logDict [] log) p with
    | none => rw [hc] at hd; simp at hd; exact absurd (h1.trans (by simpa using hd)) h2
    | some x => rw [hc] at hd; simp only [Option.getD_some] at hd; rw [hd, h1]

theorem recorded_set (r : RawDict) (hw : Dict.WF r) (p : Nat) (hs : List RawHit) (q : Nat) (h : RawHit) :
    Recorded (Dict.set r p hs) q h ↔ (q = p ∧ h ∈ hs) ∨ (q ≠ p ∧ Recorded r q h) := by
  have hw' := Dict.WF_set r p hs hw
  constructor
  · rintro ⟨hs', hm, hh⟩
    have := Dict.get?_of_mem _ _ _ hw' hm
    rw [Dict.get?_set] at this
    by_cases e : p = q
    · simp only [e, if_true, Option.some.injEq] at this
      left; exact ⟨e.symm, this ▸ hh⟩
    · simp only [e, if_false] at this
      right; exact ⟨Ne.symm e, hs', Dict.mem_of_get? _ _ _ this, hh⟩
  · rintro (⟨rfl, hh⟩ | ⟨hne, hs', hm, hh⟩)
    · exact ⟨hs, Dict.mem_of_get? _ _ _ (Dict.get?_set_self _ _ _), hh⟩
    · refine ⟨hs', Dict.mem_of_get? _ _ _ ?_, hh⟩
      rw [Dict.get?_set_ne _ _ (Ne.symm hne)]
      exact Dict.get?_of_mem _ _ _ hw hm

theorem recorded_addRaw (r : RawDict) (hw : Dict.WF r) (p : Nat) (x : RawHit) (q : Nat) (h : RawHit) :
    Recorded (addRaw r p x) q h ↔ (q = p ∧ h = x) ∨ Recorded r q h := by
  unfold addRaw
  rw [recorded_set r hw]
  constructor
  · rintro (⟨rfl, hh⟩ | ⟨_, h⟩)
    · rcases List.mem_append.1 hh with hh | hh
      · right
        cases hc : Dict.get? r q with
        | none => rw [hc] at hh; cases hh
        | some ys => rw [hc] at hh; exact ⟨ys, Dict.mem_of_get? _ _ _ hc, hh⟩
      · left; exact ⟨rfl, by simpa using hh⟩
    · exact Or.inr h
  · rintro (⟨rfl, rfl⟩ | h)
    · left; exact ⟨rfl, by simp⟩
    · by_cases e : q = p
      · subst e
        obtain ⟨ys, hm, hh⟩ := h
        left; refine ⟨rfl, ?_⟩
        rw [Dict.get?_of_mem _ _ _ hw hm]; simp [hh]
      · right; exact ⟨e, h⟩

/-! ### sorting by position -/

theorem insertPos_perm (kv : Nat × List RawHit) (r : RawDict) : (insertPos kv r).Perm (kv :: r) := by
  induction r with
  | nil => exact List.Perm.refl _
  | cons x xs ih =>
    simp only [insertPos]
    split
    · exact List.Perm.refl _
    · exact (List.Perm.cons x ih).trans (List.Perm.swap kv x xs)

theorem sortRaw_perm (r : RawDict) : (sortRaw r).Perm r := by
  induction r with
  | nil => exact List.Perm.refl _
  | cons x xs ih => exact (insertPos_perm x _).trans (List.Perm.cons x ih)

theorem insertPos_sorted (kv : Nat × List RawHit) (r : RawDict) (h : r.Pairwise (fun a b => a.1 ≤ b.1)) :
    (insertPos kv r).Pairwise (fun a b => a.1 ≤ b.1) := by
  induction r with
  | nil => simp [insertPos]
  | cons x xs ih =>
    rw [List.pairwise_cons] at h
    simp only [insertPos]
    split
    · rename_i hle
      refine List.pairwise_cons.2 ⟨fun y hy => ?_, List.pairwise_cons.2 h⟩
      rcases List.mem_cons.1 hy with rfl | hy
      · exact hle
      · exact Nat.le_trans hle (h.1 y hy)
    · rename_i hle
      refine List.pairwise_cons.2 ⟨fun y hy => ?_, ih h.2⟩
      rcases List.mem_cons.1 ((insertPos_perm kv xs).mem_iff.1 hy) with rfl | hy
      · omega
      · exact h.1 y hy

theorem sortRaw_sorted (r : RawDict) : (sortRaw r).Pairwise (fun a b => a.1 ≤ b.1) := by
  induction r with
  | nil => simp [sortRaw]
  | cons x xs ih => exact insertPos_sorted x _ ih

theorem sortRaw_strict (r : RawDict) (hw : Dict.WF r) : (sortRaw r).Pairwise (fun a b => a.1 < b.1) := by
  have h1 := sortRaw_sorted r
  have h2 : ((sortRaw r).map Prod.fst).Nodup := by
    have := (sortRaw_perm r).map Prod.fst
    exact this.nodup_iff.2 hw
  have h3 : (sortRaw r).Pairwise (fun a b => a.1 ≠ b.1) := List.pairwise_map.1 h2
  exact (h1.and h3).imp (fun h => Nat.lt_of_le_of_ne h.1 h.2)

/-! ### matches of lines -/

theorem checkMatches_log (mf : MatchFns) (info : GInfo) (line : LineRx) (start : Nat) (ms : List Re.Match)
    (env env' : Env) (r r' : RawDict) (h : checkMatches mf info line start ms env r = .ok (env', r')) :
    ∃ log, LineLog mf info line start ms env env' log ∧ r' = logDict r log := by
  induction ms generalizing env r with
  | nil =>
    simp only [checkMatches, pure_ok, Except.ok.injEq, Prod.mk.injEq] at h
    rw [← h.1, ← h.2]
    exact ⟨[], .nil env, rfl⟩
  | cons m ms ih =>
    simp only [checkMatches, bind_ok_iff] at h
    obtain ⟨⟨e1, out⟩, hc, h⟩ := h
    dsimp only at h
    cases out with
    | some d =>
      simp only [Option.isNone_some, Bool.false_and, Bool.false_eq_true, if_false] at h
      obtain ⟨log, hl, hr⟩ := ih _ _ h
      exact ⟨_, .keep hc hl, hr⟩
    | none =>
      cases hs : line.action.isStart with
      | true =>
        simp only [hs, Option.isNone_none, Bool.not_true, Bool.and_false, Bool.false_eq_true, if_false] at h
        obtain ⟨log, hl, hr⟩ := ih _ _ h
        exact ⟨_, .badStart hc hs hl, hr⟩
      | false =>
        simp only [hs, Option.isNone_none, Bool.not_false, Bool.and_self, if_true] at h
        obtain ⟨log, hl, hr⟩ := ih _ _ h
        exact ⟨_, .drop hc hs hl, hr⟩

theorem lineLog_entries {mf : MatchFns} {info : GInfo} {line : LineRx} {start : Nat} {ms : List Re.Match}
    {env env' : Env} {log : List (Nat × RawHit)} (h : LineLog mf info line start ms env env' log) :
    ∀ e ∈ log, ∃ m ∈ ms, e.1 = start + m.start ∧ e.2.info = info ∧ e.2.line = line := by
  induction h with
  | nil => simp
  | keep _ _ ih =>
    intro e he
    rcases List.mem_cons.1 he with rfl | he
    · exact ⟨_, List.mem_cons_self, rfl, rfl, rfl⟩
    · obtain ⟨m, hm, h2⟩ := ih e he; exact ⟨m, List.mem_cons_of_mem _ hm, h2⟩
  | badStart _ _ _ ih =>
    intro e he
    rcases List.mem_cons.1 he with rfl | he
    · exact ⟨_, List.mem_cons_self, rfl, rfl, rfl⟩
    · obtain ⟨m, hm, h2⟩ := ih e he; exact ⟨m, List.mem_cons_of_mem _ hm, h2⟩
  | drop _ _ _ ih =>
    intro e he
    obtain ⟨m, hm, h2⟩ := ih e he; exact ⟨m, List.mem_cons_of_mem _ hm, h2⟩

theorem linesLog_entries {mf : MatchFns} {info : GInfo} {window : Str} {start : Nat} {Rs : List LineRx}
    {env env' : Env} {log : List (Nat × RawHit)} (h : LinesLog mf info window start Rs env env' log) :
    ∀ e ∈ log, ∃ R ∈ Rs, ∃ m ∈ Re.finditer R.re window, e.1 = start + m.start ∧ e.2.info = info ∧ e.2.line = R := by
  induction h with
  | nil => simp
  | cons h1 _ ih =>
    intro e he
    rcases List.mem_append.1 he with he | he
    · obtain ⟨m, hm, h2⟩ := lineLog_entries h1 e he
      exact ⟨_, List.mem_cons_self, m, hm, h2⟩
    · obtain ⟨R, hR, h2⟩ := ih e he
      exact ⟨R, List.mem_cons_of_mem _ hR, h2⟩

theorem runNormals_log (mf : MatchFns) (text : Str) (info : GInfo) (start : Nat) (stop : Option Nat) (Rs : List LineRx)
    (env env' : Env) (r r' : RawDict) (h : runNormals mf text info start stop Rs env r = .ok (env', r')) :
    ∃ log, LinesLog mf info (slice text start stop) start Rs env env' log ∧ r' = logDict r log := by
  induction Rs generalizing env r with
  | nil =>
    simp only [runNormals, pure_ok, Except.ok.injEq, Prod.mk.injEq] at h
    rw [← h.1, ← h.2]
    exact ⟨[], .nil env, rfl⟩
  | cons R Rs ih =>
    simp only [runNormals, bind_ok_iff] at h
    obtain ⟨⟨e1, r1⟩, hc, h⟩ := h
    obtain ⟨l1, h1, rfl⟩ := checkMatches_log _ _ _ _ _ _ _ _ _ hc
    obtain ⟨l2, h2, rfl⟩ := ih _ _ h
    exact ⟨l1 ++ l2, .cons h1 h2, (logDict_append _ _ _).symm⟩

/-- where the search of the start lines stands: the first start so far -/
def SoFar (done : List LineRx) (window : Str) : Option Nat → Prop
  | none => NoMatch done window
  | some s => FirstMatch done window s

theorem finditer_head_min (r : Re) (s : Str) (m0 : Re.Match) (ms : List Re.Match) (h : Re.finditer r s = m0 :: ms) :
    ∀ m ∈ Re.finditer r s, m0.start ≤ m.start := by
  have hp := Re.scan_ascending r s 0 0
  have h' : Re.scan r s 0 0 = m0 :: ms := h
  rw [h', List.pairwise_cons] at hp
  intro m hm
  rw [h] at hm
  rcases List.mem_cons.1 hm with rfl | hm
  · exact Nat.le_refl _
  · exact Nat.le_of_lt (hp.1 m hm).1

theorem soFar_step (done : List LineRx) (window : Str) (o : Option Nat) (R : LineRx) (m0 : Re.Match) (ms : List Re.Match)
    (h : Re.finditer R.re window = m0 :: ms) : SoFar done window o →
    SoFar (done ++ [R]) window (some (match o with
      | none => m0.start
      | some s => if s > m0.start then m0.start else s)) := by
  intro hs
  have hmin := finditer_head_min _ _ _ _ h
  have hm0 : m0 ∈ Re.finditer R.re window := by rw [h]; exact List.mem_cons_self
  cases o with
  | none =>
    refine ⟨⟨R, by simp, m0, hm0, rfl⟩, ?_⟩
    intro R' hR m hm
    rcases List.mem_append.1 hR with hR | hR
    · have := hs R' hR; rw [this] at hm; cases hm
    · simp only [List.mem_singleton] at hR; subst hR; exact hmin m hm
  | some s =>
    obtain ⟨⟨R1, hR1, m1, hm1, e1⟩, hle⟩ := hs
    dsimp only
    split
    · rename_i hgt
      refine ⟨⟨R, by simp, m0, hm0, rfl⟩, ?_⟩
      intro R' hR m hm
      rcases List.mem_append.1 hR with hR | hR
      · have := hle R' hR m hm; omega
      · simp only [List.mem_singleton] at hR; subst hR; exact hmin m hm
    · rename_i hgt
      refine ⟨⟨R1, by simp [hR1], m1, hm1, e1⟩, ?_⟩
      intro R' hR m hm
      rcases List.mem_append.1 hR with hR | hR
      · exact hle R' hR m hm
      · simp only [List.mem_singleton] at hR; subst hR; have := hmin m hm; omega

theorem soFar_skip (done : List LineRx) (window : Str) (o : Option Nat) (R : LineRx)
    (h : Re.finditer R.re window = []) (hs : SoFar done window o) : SoFar (done ++ [R]) window o := by
  cases o with
  | none =>
    intro R' hR
    rcases List.mem_append.1 hR with hR | hR
    · exact hs R' hR
    · simp only [List.mem_singleton] at hR; subst hR; exact h
  | some s =>
    obtain ⟨⟨R1, hR1, m1⟩, hle⟩ := hs
    refine ⟨⟨R1, by simp [hR1], m1⟩, ?_⟩
    intro R' hR m hm
    rcases List.mem_append.1 hR with hR | hR
    · exact hle R' hR m hm
    · simp only [List.mem_singleton] at hR; subst hR; rw [h] at hm; cases hm

theorem runStarts_log_aux (mf : MatchFns) (text : Str) (info : GInfo) (start : Nat) (stop : Option Nat)
    (done Rs : List LineRx) (si si' : StartInfo) (env env' : Env) (r r' : RawDict)
    (hs : SoFar done (slice text start stop) si.s)
    (h : runStarts mf text info start stop Rs si env r = .ok (si', env', r')) :
    SoFar (done ++ Rs) (slice text start stop) si'.s ∧
    ∃ log, LinesLog mf info (slice text start stop) start Rs env env' log ∧ r' = logDict r log := by
  induction Rs generalizing done si env r with
  | nil =>
    simp only [runStarts, pure_ok, Except.ok.injEq, Prod.mk.injEq] at h
    rw [← h.1, ← h.2.1, ← h.2.2]
    exact ⟨by simpa using hs, [], .nil env, rfl⟩
  | cons R Rs ih =>
    simp only [runStarts] at h
    split at h
    · rename_i hf
      obtain ⟨h1, log, h2, h3⟩ := ih (done ++ [R]) si env r (soFar_skip _ _ _ _ hf hs) h
      refine ⟨by simpa using h1, log, ?_, h3⟩
      have : LinesLog mf info (slice text start stop) start (R :: Rs) env env' ([] ++ log) :=
        .cons (by rw [hf]; exact .nil env) h2
      simpa using this
    · rename_i m0 ms hf
      simp only [bind_ok_iff] at h
      obtain ⟨⟨e1, r1⟩, hc, h⟩ := h
      obtain ⟨l1, h1, rfl⟩ := checkMatches_log _ _ _ _ _ _ _ _ _ hc
      obtain ⟨g1, l2, h2, h3⟩ := ih (done ++ [R]) _ _ _ (soFar_step _ _ _ _ _ _ hf hs) h
      refine ⟨by simpa using g1, l1 ++ l2, .cons (by rw [hf]; exact h1) h2, ?_⟩
      rw [h3, logDict_append]

theorem runStarts_log (mf : MatchFns) (text : Str) (info : GInfo) (start : Nat) (stop : Option Nat)
    (Rs : List LineRx) (si' : StartInfo) (env env' : Env) (r r' : RawDict)
    (h : runStarts mf text info start stop Rs ⟨none, 0⟩ env r = .ok (si', env', r')) :
    SoFar Rs (slice text start stop) si'.s ∧
    ∃ log, LinesLog mf info (slice text start stop) start Rs env env' log ∧ r' = logDict r log := by
  have := runStarts_log_aux mf text info start stop [] Rs ⟨none, 0⟩ si' env env' r r' (by intro R hR; cases hR) h
  simpa using this

theorem linesLog_noMatch {mf : MatchFns} {info : GInfo} {window : Str} {start : Nat} {Rs : List LineRx}
    {env env' : Env} {log : List (Nat × RawHit)} (h : LinesLog mf info window start Rs env env' log)
    (hn : NoMatch Rs window) : env' = env ∧ log = [] := by
  induction h with
  | nil => exact ⟨rfl, rfl⟩
  | cons h1 _ ih =>
    have hr := hn _ List.mem_cons_self
    rw [hr] at h1
    cases h1
    have := ih (fun R hR => hn R (List.mem_cons_of_mem _ hR))
    exact ⟨this.1, by simp [this.2]⟩

mutual
theorem runRe_plain (mf : MatchFns) (text : Str) (g : Grp) (hp : g.Plain) (start : Nat) (env env' : Env) (r r' : RawDict)
    (h : runRe mf text g start none env r = .ok (env', r')) :
    ∃ log, GrpLog mf text g start env env' log ∧ r' = logDict r log := by
  match g, hp, h with
  | .mk info startL normalL endL d children, hp, h =>
    obtain ⟨hne, rfl, rfl, hpc⟩ := hp
    simp only [runRe, bind_ok_iff] at h
    obtain ⟨⟨si, e1, r1⟩, h1, h⟩ := h
    obtain ⟨hs, l1, hl1, rfl⟩ := runStarts_log _ _ _ _ _ _ _ _ _ _ _ h1
    dsimp only at h
    cases hsi : si.s with
    | none =>
      rw [hsi] at h hs
      dsimp only at h
      simp only [Bool.false_eq_true, if_false] at h
      obtain ⟨rfl, rfl⟩ := linesLog_noMatch hl1 hs
      have hd : ∀ gs, PlainAll gs → runDefaultChildren mf text startL.isEmpty gs start none e1 r =
          .ok (e1, r) := by
        have hemp : startL.isEmpty = false := by cases startL with
          | nil => exact absurd rfl hne
          | cons => rfl
        intro gs
        induction gs with
        | nil => intro _; rfl
        | cons g gs ih =>
          intro hpa
          obtain ⟨hg, hgs⟩ := hpa
          have hgd : g.hasDefault = false := by
            match g, hg with
            | .mk _ _ _ _ _ _, hg => exact hg.2.2.1
          simp only [runDefaultChildren, hemp, hgd, Bool.false_or, Bool.false_eq_true, if_false, pure_ok, ok_bind]
          rw [← hemp]; exact ih hgs
      have h' : runDefaultChildren mf text startL.isEmpty children start none e1 r = .ok (env', r') := h
      rw [hd children hpc] at h'
      simp only [Except.ok.injEq, Prod.mk.injEq] at h'
      rw [← h'.1, ← h'.2]
      exact ⟨[], .absent hs, rfl⟩
    | some s =>
      rw [hsi] at h hs
      simp only [runEnds, pure_ok, ok_bind, bind_ok_iff] at h
      obtain ⟨⟨e3, r3⟩, h3, h4⟩ := h
      obtain ⟨l2, hl2, rfl⟩ := runNormals_log _ _ _ _ _ _ _ _ _ _ h3
      obtain ⟨l3, hl3, rfl⟩ := runChildren_plain mf text children hpc _ _ _ _ _ h4
      refine ⟨l1 ++ l2 ++ l3, .found hs hl1 hl2 hl3, ?_⟩
      rw [logDict_append, logDict_append]
theorem runChildren_plain (mf : MatchFns) (text : Str) (gs : List Grp) (hp : PlainAll gs) (start : Nat) (env env' : Env)
    (r r' : RawDict) (h : runChildren mf text gs start none env r = .ok (env', r')) :
    ∃ log, GrpsLog mf text gs start env env' log ∧ r' = logDict r log := by
  match gs, hp, h with
  | [], _, h =>
    simp only [runChildren, pure_ok, Except.ok.injEq, Prod.mk.injEq] at h
    rw [← h.1, ← h.2]
    exact ⟨[], .nil _ _, rfl⟩
  | g :: gs, hp, h =>
    simp only [runChildren, bind_ok_iff] at h
    obtain ⟨⟨e1, r1⟩, h1, h2⟩ := h
    obtain ⟨l1, hl1, rfl⟩ := runRe_plain mf text g hp.1 _ _ _ _ _ h1
    obtain ⟨l2, hl2, rfl⟩ := runChildren_plain mf text gs hp.2 _ _ _ _ _ h2
    exact ⟨l1 ++ l2, .cons hl1 hl2, (logDict_append _ _ _).symm⟩
end

end TTP
