import Verif.Proofs.Parser
/-! # Where matches can be recorded -/

namespace TTP
open Py

/-- the position is not behind the end of the window -/
def InWin (stop : Option Nat) (p : Nat) : Prop := ∀ e, stop = some e → p ≤ e

theorem slice_length (text : Str) (start : Nat) (e : Nat) : (slice text start (some e)).length ≤ e - start := by
  simp only [slice, List.length_drop, List.length_take]; omega

theorem finditer_stop (r : Re) (s : Str) (m : Re.Match) (hm : m ∈ Re.finditer r s) : m.stop ≤ s.length := by
  have h1 := (Re.finditer_sound r s m hm).1
  have h2 := (Re.finditer_text r s m hm).length_le
  simp only [List.length_drop] at h2
  simp only [Re.Match.stop]; omega

theorem recorded_logDict (r : RawDict) (hg : Good r) (log : List (Nat × RawHit)) (p : Nat) (h : RawHit) :
    Recorded (logDict r log) p h ↔ Recorded r p h ∨ (p, h) ∈ log := by
  induction log generalizing r with
  | nil => simp [logDict]
  | cons e log ih =>
    have : logDict r (e :: log) = logDict (addRaw r e.1 e.2) log := rfl
    rw [this, ih _ (good_addRaw r e.1 e.2 hg), recorded_addRaw r hg.1]
    obtain ⟨q, x⟩ := e
    simp only [List.mem_cons, Prod.mk.injEq]
    constructor
    · rintro ((h | h) | h)
      · exact Or.inr (Or.inl h)
      · exact Or.inl h
      · exact Or.inr (Or.inr h)
    · rintro (h | h | h)
      · exact Or.inl (Or.inr h)
      · exact Or.inl (Or.inl h)
      · exact Or.inr h

theorem removeLoop_subset (bad : RawHit → Bool) (hs : List RawHit) : ∀ h ∈ removeLoop bad hs, h ∈ hs := by
  intro h hh
  induction hs using removeLoop.induct bad with
  | case1 => simp [removeLoop] at hh
  | case2 x hx => simp [removeLoop, hx] at hh
  | case3 x hx => simpa [removeLoop, hx] using hh
  | case4 x y rest hx ih =>
    simp only [removeLoop, hx, if_true, List.mem_cons] at hh
    rcases hh with rfl | hh
    · simp
    · simp [ih hh]
  | case5 x y rest hx ih =>
    simp only [removeLoop, hx, Bool.false_eq_true, if_false, List.mem_cons] at hh
    rcases hh with rfl | hh
    · simp
    · have := ih hh; simp only [List.mem_cons] at this ⊢; exact Or.inr this

theorem removeLoop_keeps (bad : RawHit → Bool) (hs : List RawHit) (h : RawHit) (hh : h ∈ hs) (hb : bad h = false) :
    h ∈ removeLoop bad hs := by
  induction hs using removeLoop.induct bad with
  | case1 => cases hh
  | case2 x hx =>
    simp only [List.mem_singleton] at hh; subst hh; rw [hb] at hx; cases hx
  | case3 x hx => simpa [removeLoop, hx] using hh
  | case4 x y rest hx ih =>
    simp only [removeLoop, hx, if_true]
    simp only [List.mem_cons] at hh
    rcases hh with rfl | rfl | hh
    · rw [hb] at hx; cases hx
    · simp
    · simp [ih hh]
  | case5 x y rest hx ih =>
    simp only [removeLoop, hx, Bool.false_eq_true, if_false]
    simp only [List.mem_cons] at hh
    rcases hh with rfl | hh
    · simp
    · have := ih (by simpa using hh)
      simp only [List.mem_cons]; exact Or.inr this

theorem good_cleanup (info : GInfo) (stop : Nat) (r : RawDict) (hg : Good r) : Good (cleanup info stop r) := by
  unfold cleanup
  constructor
  · unfold Dict.WF Dict.keys
    have h1 : ((r.map (fun kv => (kv.1, removeLoop (fun h => h.info.uid == info.uid && decide (kv.1 > stop)) kv.2))).map
        Prod.fst).Nodup := by
      rw [List.map_map]; exact hg.1
    exact h1.sublist (List.filter_sublist.map _)
  · intro kv hkv
    have := (List.mem_filter.1 hkv).2
    intro e; rw [e] at this; simp at this

theorem recorded_cleanup (info : GInfo) (stop : Nat) (r : RawDict) (p : Nat) (h : RawHit)
    (hr : Recorded (cleanup info stop r) p h) : Recorded r p h := by
  obtain ⟨hs, hm, hh⟩ := hr
  have h1 := (List.mem_filter.1 hm).1
  obtain ⟨⟨q, hs'⟩, h2, h3⟩ := List.mem_map.1 h1
  simp only [Prod.mk.injEq] at h3
  obtain ⟨rfl, h3⟩ := h3
  subst h3
  exact ⟨hs', h2, removeLoop_subset _ _ _ hh⟩

/-- what is not of the group or not behind the end stays -/
theorem cleanup_keeps (info : GInfo) (stop : Nat) (r : RawDict) (p : Nat) (h : RawHit)
    (hr : Recorded r p h) (hk : h.info.uid ≠ info.uid ∨ p ≤ stop) : Recorded (cleanup info stop r) p h := by
  obtain ⟨hs, hm, hh⟩ := hr
  have hin : h ∈ removeLoop (fun x => x.info.uid == info.uid && decide (p > stop)) hs := by
    apply removeLoop_keeps _ _ _ hh
    rcases hk with hk | hk
    · simp [hk]
    · simp; intro _; omega
  refine ⟨_, List.mem_filter.2 ⟨List.mem_map.2 ⟨(p, hs), hm, rfl⟩, ?_⟩, hin⟩
  simp only [Bool.not_eq_true', List.isEmpty_eq_false_iff]
  intro e; rw [e] at hin; cases hin

/-- the end after one more end line whose last match ends at `x` -/
def nextEnd (e : Option Nat) (x se : Nat) : Option Nat :=
  if (match e with
    | none => true
    | some e => decide (e < x)) && decide (x > se) then some x else e

theorem nextEnd_cases (e : Option Nat) (x se : Nat) :
    (nextEnd e x se = some x ∧ se < x ∧ ∀ y, e = some y → y < x) ∨
    (nextEnd e x se = e ∧ (se < x → ∃ y, e = some y ∧ x ≤ y)) := by
  unfold nextEnd
  cases e with
  | none =>
    by_cases h : x > se
    · left; simp [h]
    · right; simp [h]
  | some y =>
    by_cases h : x > se
    · by_cases h2 : y < x
      · left; simp [h, h2]
      · right; simp [h2]; omega
    · right; simp [h]

theorem runEnds_log (mf : MatchFns) (text : Str) (info : GInfo) (start : Nat) (stop : Option Nat) (se : Nat)
    (Rs : List LineRx) (e e' : Option Nat) (env env' : Env) (r r' : RawDict)
    (h : runEnds mf text info start stop se Rs e env r = .ok (e', env', r')) :
    (∃ log, LinesLog mf info (slice text start stop) start Rs env env' log ∧ r' = logDict r log) ∧
    (∀ x, e' = some x → e = some x ∨ ∃ R ∈ Rs, ∃ m ∈ Re.finditer R.re (slice text start stop), x = m.stop ∧ se < x) ∧
    (∀ x, e = some x → ∃ y, e' = some y ∧ x ≤ y) ∧
    (∀ R ∈ Rs, ∀ m, (Re.finditer R.re (slice text start stop)).getLast? = some m → se < m.stop →
      ∃ y, e' = some y ∧ m.stop ≤ y) := by
  induction Rs generalizing e env r with
  | nil =>
    simp only [runEnds, pure_ok, Except.ok.injEq, Prod.mk.injEq] at h
    rw [← h.1, ← h.2.1, ← h.2.2]
    exact ⟨⟨[], .nil env, rfl⟩, fun x hx => Or.inl hx, fun x hx => ⟨x, hx, Nat.le_refl _⟩, by simp⟩
  | cons R Rs ih =>
    simp only [runEnds] at h
    split at h
    · rename_i hf
      obtain ⟨⟨log, h1, h2⟩, h3, h4, h5⟩ := ih _ _ _ h
      refine ⟨⟨log, ?_, h2⟩, ?_, h4, ?_⟩
      · have : LinesLog mf info (slice text start stop) start (R :: Rs) env env' ([] ++ log) :=
          .cons (by rw [hf]; exact .nil env) h1
        simpa using this
      · intro x hx
        rcases h3 x hx with h | ⟨R', hR, h⟩
        · exact Or.inl h
        · exact Or.inr ⟨R', List.mem_cons_of_mem _ hR, h⟩
      · intro R' hR m hm hlt
        rcases List.mem_cons.1 hR with rfl | hR
        · rw [hf] at hm; cases hm
        · exact h5 R' hR m hm hlt
    · rename_i m0 ms hf
      simp only [bind_ok_iff] at h
      obtain ⟨⟨e1, r1⟩, hc, h⟩ := h
      obtain ⟨l1, g1, rfl⟩ := checkMatches_log _ _ _ _ _ _ _ _ _ hc
      have hlast : (m0 :: ms).getLast? = some ((m0 :: ms).getLastD m0) := by
        rw [List.getLast?_cons, List.getLastD_cons, List.getLastD_eq_getLast?]
      have hmem : (m0 :: ms).getLastD m0 ∈ Re.finditer R.re (slice text start stop) := by
        rw [hf]; exact List.mem_of_getLast? hlast
      generalize (m0 :: ms).getLastD m0 = last at h hlast hmem
      have h' : runEnds mf text info start stop se Rs (nextEnd e last.stop se) e1 (logDict r l1) = .ok (e', env', r') := h
      have hn := nextEnd_cases e last.stop se
      generalize nextEnd e last.stop se = ne at h' hn
      obtain ⟨⟨log, h1, h2⟩, h3, h4, h5⟩ := ih _ _ _ h'
      refine ⟨⟨l1 ++ log, .cons (by rw [hf]; exact g1) h1, by rw [h2, logDict_append]⟩, ?_, ?_, ?_⟩
      · intro x hx
        rcases h3 x hx with h | ⟨R', hR, h⟩
        · rcases hn with ⟨h6, h7, _⟩ | ⟨h6, _⟩
          · rw [h6] at h
            simp only [Option.some.injEq] at h
            exact Or.inr ⟨R, List.mem_cons_self, _, hmem, h.symm, by omega⟩
          · exact Or.inl (h6 ▸ h)
        · exact Or.inr ⟨R', List.mem_cons_of_mem _ hR, h⟩
      · intro x hx
        rcases hn with ⟨h6, h7, h8⟩ | ⟨h6, _⟩
        · obtain ⟨y, hy, hle⟩ := h4 _ h6
          have := h8 x hx
          exact ⟨y, hy, by omega⟩
        · exact h4 x (h6 ▸ hx)
      · intro R' hR m hm hlt
        rcases List.mem_cons.1 hR with rfl | hR
        · rw [hf, hlast] at hm
          simp only [Option.some.injEq] at hm
          subst hm
          rcases hn with ⟨h6, h7, h8⟩ | ⟨h6, h7⟩
          · exact h4 _ h6
          · obtain ⟨y, hy, hle⟩ := h7 hlt
            obtain ⟨z, hz, hle2⟩ := h4 y (h6 ▸ hy)
            exact ⟨z, hz, by omega⟩
        · exact h5 R' hR m hm hlt

/-- a match that belongs to the window of the group, or the one that stands for defaults only -/
def NewEntry (gs : List GInfo) (start : Nat) (stop : Option Nat) (p : Nat) (h : RawHit) : Prop :=
  h.info ∈ gs ∧ ((start ≤ p ∧ InWin stop p) ∨ (10000000 ≤ p ∧ h.data = some []))

theorem NewEntry.mono {gs gs' : List GInfo} {start start' : Nat} {stop stop' : Option Nat} {p : Nat} {h : RawHit}
    (hn : NewEntry gs start stop p h) (hg : ∀ g ∈ gs, g ∈ gs') (hs : start' ≤ start)
    (he : ∀ e', stop' = some e' → ∃ e, stop = some e ∧ e ≤ e') : NewEntry gs' start' stop' p h := by
  refine ⟨hg _ hn.1, ?_⟩
  rcases hn.2 with h1 | h1
  · refine Or.inl ⟨Nat.le_trans hs h1.1, fun e' h2 => ?_⟩
    obtain ⟨e, h3, h4⟩ := he e' h2
    exact Nat.le_trans (h1.2 e h3) h4
  · exact Or.inr h1

theorem linesLog_new {mf : MatchFns} {info : GInfo} {text : Str} {start : Nat} {stop : Option Nat} {Rs : List LineRx}
    {env env' : Env} {log : List (Nat × RawHit)} (h : LinesLog mf info (slice text start stop) start Rs env env' log)
    (hw : InWin stop start) (p : Nat) (x : RawHit) (hm : (p, x) ∈ log) :
    x.info = info ∧ start ≤ p ∧ InWin stop p := by
  obtain ⟨R, _, m, hmm, h1, h2, _⟩ := linesLog_entries h _ hm
  dsimp only at h1 h2
  refine ⟨h2, by omega, fun e he => ?_⟩
  have h3 := (Re.finditer_sound _ _ _ hmm).1
  have h4 := hw e he
  subst he
  have h5 := slice_length text start e
  omega

theorem freeKey_ge (r : RawDict) (n k : Nat) : k ≤ freeKey r n k := by
  induction n generalizing k with
  | zero => exact Nat.le_refl _
  | succ n ih =>
    simp only [freeKey]
    split
    · exact Nat.le_trans (by omega) (ih (k + 1))
    · exact Nat.le_refl _

theorem freeKey_skipped (r : RawDict) (n k q : Nat) (h1 : k ≤ q) (h2 : q < freeKey r n k) : q ∈ Dict.keys r := by
  induction n generalizing k with
  | zero => simp only [freeKey] at h2; omega
  | succ n ih =>
    simp only [freeKey] at h2
    split at h2
    · rename_i hk
      by_cases e : k = q
      · rw [← e]; exact (Dict.has_iff _ _).1 hk
      · exact ih (k + 1) (by omega) h2
    · omega

theorem nodup_length_le {α : Type} (s t : List α) (hn : s.Nodup) (hs : ∀ x ∈ s, x ∈ t) : s.length ≤ t.length := by
  induction s generalizing t with
  | nil => simp
  | cons a s ih =>
    rw [List.nodup_cons] at hn
    obtain ⟨t1, t2, rfl⟩ := List.append_of_mem (hs a (by simp))
    have := ih (t1 ++ t2) hn.2 (fun x hx => by
      have h1 := hs x (by simp [hx])
      simp only [List.mem_append, List.mem_cons] at h1 ⊢
      rcases h1 with h1 | rfl | h1
      · exact Or.inl h1
      · exact absurd hx hn.1
      · exact Or.inr h1)
    simp only [List.length_append, List.length_cons] at this ⊢
    omega

/-- the fuel is enough: the key found is free -/
theorem freeKey_free (r : RawDict) (k : Nat) : freeKey r r.length k ∉ Dict.keys r := by
  have key : ∀ n (s : List Nat) k, s.Nodup → s ⊆ Dict.keys r → (∀ x ∈ s, x < k) → (Dict.keys r).length ≤ n + s.length →
      freeKey r n k ∉ Dict.keys r := by
    intro n
    induction n with
    | zero =>
      intro s k hnd hsub hlt hlen hmem
      simp only [freeKey] at hmem
      have hnk : k ∉ s := fun h => by have := hlt k h; omega
      have h2 : (k :: s).Nodup := List.nodup_cons.2 ⟨hnk, hnd⟩
      have h3 : (k :: s) ⊆ Dict.keys r := by
        intro x hx
        rcases List.mem_cons.1 hx with rfl | hx
        · exact hmem
        · exact hsub hx
      have h4 := nodup_length_le _ _ h2 h3
      simp only [List.length_cons] at h4
      omega
    | succ n ih =>
      intro s k hnd hsub hlt hlen
      simp only [freeKey]
      split
      · rename_i hk
        have hnk : k ∉ s := fun h => by have := hlt k h; omega
        refine ih (k :: s) (k + 1) (List.nodup_cons.2 ⟨hnk, hnd⟩) ?_ ?_ (by simp only [List.length_cons]; omega)
        · intro x hx
          rcases List.mem_cons.1 hx with rfl | hx
          · exact (Dict.has_iff _ _).1 hk
          · exact hsub hx
        · intro x hx
          rcases List.mem_cons.1 hx with rfl | hx
          · omega
          · have := hlt x hx; omega
      · rename_i hk
        intro hm
        exact hk ((Dict.has_iff _ _).2 hm)
  exact key r.length [] k List.nodup_nil (by intro x hx; cases hx) (by simp) (by simp [Dict.keys])

theorem good_addDefault (info : GInfo) (startL : List LineRx) (r : RawDict) (hg : Good r) : Good (addDefault info startL r) :=
  good_set _ _ _ (by simp) hg

theorem recorded_addDefault (info : GInfo) (startL : List LineRx) (r : RawDict) (hg : Good r) (p : Nat) (h : RawHit) :
    Recorded (addDefault info startL r) p h ↔
      (p = freeKey r r.length 10000000 ∧ h = ⟨info, (startL.head?).getD emptyStart, some []⟩) ∨ Recorded r p h := by
  unfold addDefault
  rw [recorded_set r hg.1]
  simp only [List.mem_singleton]
  constructor
  · rintro (h | ⟨_, h⟩)
    · exact Or.inl h
    · exact Or.inr h
  · rintro (h | h)
    · exact Or.inl h
    · right
      refine ⟨?_, h⟩
      rintro rfl
      obtain ⟨hs, hm, _⟩ := h
      exact freeKey_free r 10000000 (List.mem_map.2 ⟨_, hm, rfl⟩)

mutual
theorem runRe_entries (mf : MatchFns) (text : Str) (g : Grp) (start : Nat) (stop : Option Nat) (env env' : Env)
    (r r' : RawDict) (hg : Good r) (hw : InWin stop start) (h : runRe mf text g start stop env r = .ok (env', r')) :
    Good r' ∧ ∀ p x, Recorded r' p x → Recorded r p x ∨ NewEntry g.infos start stop p x := by
  match g, h with
  | .mk info startL normalL endL d children, h =>
    simp only [runRe, bind_ok_iff] at h
    obtain ⟨⟨si, e1, r1⟩, h1, h⟩ := h
    obtain ⟨hs, l1, hl1, rfl⟩ := runStarts_log _ _ _ _ _ _ _ _ _ _ _ h1
    have hg1 := good_logDict r l1 hg
    have rec1 : ∀ p x, Recorded (logDict r l1) p x → Recorded r p x ∨ NewEntry (Grp.mk info startL normalL endL d children).infos start stop p x := by
      intro p x hx
      rcases (recorded_logDict r hg l1 p x).1 hx with hx | hx
      · exact Or.inl hx
      · have := linesLog_new hl1 hw p x hx
        exact Or.inr ⟨by simp [Grp.infos, this.1], Or.inl this.2⟩
    dsimp only at h
    cases hsi : si.s with
    | none =>
      rw [hsi] at h hs
      dsimp only at h
      have hg2 : Good (if d = true then addDefault info startL (logDict r l1) else logDict r l1) := by
        split
        · exact good_addDefault _ _ _ hg1
        · exact hg1
      have hc := runDefaultChildren_entries mf text startL.isEmpty children start stop e1 env' _ r' hg2 hw h
      refine ⟨hc.1, fun p x hx => ?_⟩
      rcases hc.2 p x hx with hx | hx
      · split at hx
        · rcases (recorded_addDefault _ _ _ hg1 _ _).1 hx with ⟨rfl, rfl⟩ | hx
          · exact Or.inr ⟨by simp [Grp.infos], Or.inr ⟨freeKey_ge _ _ _, rfl⟩⟩
          · exact rec1 p x hx
        · exact rec1 p x hx
      · exact Or.inr (hx.mono (fun g hg => by simp [Grp.infos, hg]) (Nat.le_refl _) (fun e he => ⟨e, he, Nat.le_refl _⟩))
    | some s =>
      rw [hsi] at h hs
      simp only [bind_ok_iff] at h
      obtain ⟨⟨e, e2, r2⟩, h2, h⟩ := h
      obtain ⟨⟨l2, hl2, rfl⟩, he1, _, _⟩ := runEnds_log _ _ _ _ _ _ _ _ _ _ _ _ _ h2
      have hsw : InWin stop (start + s) := by
        intro e he
        obtain ⟨R, _, m, hm, rfl⟩ := hs.1
        have h3 := (Re.finditer_sound _ _ _ hm).1
        have h4 := hw e he
        subst he
        have h5 := slice_length text start e
        omega
      have hg2 := good_logDict _ l2 hg1
      have rec2 : ∀ p x, Recorded (logDict (logDict r l1) l2) p x →
          Recorded r p x ∨ NewEntry (Grp.mk info startL normalL endL d children).infos start stop p x := by
        intro p x hx
        rcases (recorded_logDict _ hg1 l2 p x).1 hx with hx | hx
        · exact rec1 p x hx
        · have := linesLog_new hl2 hsw p x hx
          exact Or.inr ⟨by simp [Grp.infos, this.1], Or.inl ⟨by omega, this.2.2⟩⟩
      -- the window of the rest
      have fin : ∀ stop' r3, Good r3 → (∀ p x, Recorded r3 p x → Recorded (logDict (logDict r l1) l2) p x) →
          InWin stop' (start + s) → (∀ e', stop = some e' → ∃ e, stop' = some e ∧ e ≤ e') →
          (∃ q, runNormals mf text info (start + s) stop' normalL e2 r3 = .ok q ∧
            runChildren mf text children (start + s) stop' q.1 q.2 = .ok (env', r')) →
          Good r' ∧ ∀ p x, Recorded r' p x → Recorded r p x ∨ NewEntry (Grp.mk info startL normalL endL d children).infos start stop p x := by
        rintro stop' r3 hg3 hsub hw' hst ⟨⟨e3, r4⟩, h3, h4⟩
        obtain ⟨l3, hl3, rfl⟩ := runNormals_log _ _ _ _ _ _ _ _ _ _ h3
        have hg4 := good_logDict _ l3 hg3
        have hc := runChildren_entries mf text children (start + s) stop' e3 env' _ r' hg4 hw' h4
        refine ⟨hc.1, fun p x hx => ?_⟩
        rcases hc.2 p x hx with hx | hx
        · rcases (recorded_logDict _ hg3 l3 p x).1 hx with hx | hx
          · exact rec2 p x (hsub p x hx)
          · have := linesLog_new hl3 hw' p x hx
            refine Or.inr ⟨by simp [Grp.infos, this.1], Or.inl ⟨by omega, fun e' he' => ?_⟩⟩
            obtain ⟨e, h5, h6⟩ := hst e' he'
            exact Nat.le_trans (this.2.2 e h5) h6
        · exact Or.inr (hx.mono (fun g hg => by simp [Grp.infos, hg]) (by omega) hst)
      cases e with
      | none =>
        dsimp only at h
        exact fin stop _ hg2 (fun p x hx => hx) hsw (fun e he => ⟨e, he, Nat.le_refl _⟩) h
      | some x =>
        dsimp only at h
        refine fin (some (start + s + x)) _ (good_cleanup _ _ _ hg2) (fun p x hx => recorded_cleanup _ _ _ _ _ hx)
          (by (intro e he; simp only [Option.some.injEq] at he; omega)) ?_ h
        intro e' he'
        refine ⟨_, rfl, ?_⟩
        rcases he1 x rfl with h | ⟨R, _, m, hm, rfl, _⟩
        · cases h
        · have h6 := finditer_stop _ _ _ hm
          have h7 := hsw e' he'
          subst he'
          have h8 := slice_length text (start + s) e'
          omega
theorem runChildren_entries (mf : MatchFns) (text : Str) (gs : List Grp) (start : Nat) (stop : Option Nat) (env env' : Env)
    (r r' : RawDict) (hg : Good r) (hw : InWin stop start) (h : runChildren mf text gs start stop env r = .ok (env', r')) :
    Good r' ∧ ∀ p x, Recorded r' p x → Recorded r p x ∨ NewEntry (infosAll gs) start stop p x := by
  match gs, h with
  | [], h =>
    simp only [runChildren, pure_ok, Except.ok.injEq, Prod.mk.injEq] at h
    rw [← h.2]
    exact ⟨hg, fun p x hx => Or.inl hx⟩
  | g :: gs, h =>
    simp only [runChildren, bind_ok_iff] at h
    obtain ⟨⟨e1, r1⟩, h1, h2⟩ := h
    have a := runRe_entries mf text g start stop env e1 r r1 hg hw h1
    have b := runChildren_entries mf text gs start stop e1 env' r1 r' a.1 hw h2
    refine ⟨b.1, fun p x hx => ?_⟩
    rcases b.2 p x hx with hx | hx
    · rcases a.2 p x hx with hx | hx
      · exact Or.inl hx
      · exact Or.inr (hx.mono (fun g hg => by simp [infosAll, hg]) (Nat.le_refl _) (fun e he => ⟨e, he, Nat.le_refl _⟩))
    · exact Or.inr (hx.mono (fun g hg => by simp [infosAll, hg]) (Nat.le_refl _) (fun e he => ⟨e, he, Nat.le_refl _⟩))
theorem runDefaultChildren_entries (mf : MatchFns) (text : Str) (b : Bool) (gs : List Grp) (start : Nat) (stop : Option Nat)
    (env env' : Env) (r r' : RawDict) (hg : Good r) (hw : InWin stop start)
    (h : runDefaultChildren mf text b gs start stop env r = .ok (env', r')) :
    Good r' ∧ ∀ p x, Recorded r' p x → Recorded r p x ∨ NewEntry (infosAll gs) start stop p x := by
  match gs, h with
  | [], h =>
    simp only [runDefaultChildren, pure_ok, Except.ok.injEq, Prod.mk.injEq] at h
    rw [← h.2]
    exact ⟨hg, fun p x hx => Or.inl hx⟩
  | g :: gs, h =>
    have h' : (if b || g.hasDefault then runRe mf text g start stop env r else pure (env, r)) >>= (fun q =>
        runDefaultChildren mf text b gs start stop q.1 q.2) = .ok (env', r') := by
      rw [← h]; simp only [runDefaultChildren]; split <;> rfl
    rw [bind_ok_iff] at h'
    obtain ⟨⟨e1, r1⟩, h1, h2⟩ := h'
    have a : Good r1 ∧ ∀ p x, Recorded r1 p x → Recorded r p x ∨ NewEntry g.infos start stop p x := by
      split at h1
      · exact runRe_entries mf text g start stop env e1 r r1 hg hw h1
      · simp only [pure_ok, Except.ok.injEq, Prod.mk.injEq] at h1
        rw [← h1.2]; exact ⟨hg, fun p x hx => Or.inl hx⟩
    have c := runDefaultChildren_entries mf text b gs start stop e1 env' r1 r' a.1 hw h2
    refine ⟨c.1, fun p x hx => ?_⟩
    rcases c.2 p x hx with hx | hx
    · rcases a.2 p x hx with hx | hx
      · exact Or.inl hx
      · exact Or.inr (hx.mono (fun g hg => by simp [infosAll, hg]) (Nat.le_refl _) (fun e he => ⟨e, he, Nat.le_refl _⟩))
    · exact Or.inr (hx.mono (fun g hg => by simp [infosAll, hg]) (Nat.le_refl _) (fun e he => ⟨e, he, Nat.le_refl _⟩))
end

theorem runStarts_se (mf : MatchFns) (text : Str) (info : GInfo) (start : Nat) (stop : Option Nat)
    (Rs : List LineRx) (si si' : StartInfo) (env env' : Env) (r r' : RawDict)
    (h : runStarts mf text info start stop Rs si env r = .ok (si', env', r')) :
    si'.se = si.se ∨ ∃ S ∈ Rs, S.isLine = false ∧ ∃ a ∈ Re.finditer S.re (slice text start stop), si'.se = a.stop + start := by
  induction Rs generalizing si env r with
  | nil =>
    simp only [runStarts, pure_ok, Except.ok.injEq, Prod.mk.injEq] at h
    rw [← h.1]; exact Or.inl rfl
  | cons R Rs ih =>
    simp only [runStarts] at h
    split at h
    · rcases ih _ _ _ h with h | ⟨S, hS, h⟩
      · exact Or.inl h
      · exact Or.inr ⟨S, List.mem_cons_of_mem _ hS, h⟩
    · rename_i m0 ms hf
      simp only [bind_ok_iff] at h
      obtain ⟨⟨e1, r1⟩, hc, h⟩ := h
      have hlast : (m0 :: ms).getLast? = some ((m0 :: ms).getLastD m0) := by
        rw [List.getLast?_cons, List.getLastD_cons, List.getLastD_eq_getLast?]
      have hmem : (m0 :: ms).getLastD m0 ∈ Re.finditer R.re (slice text start stop) := by
        rw [hf]; exact List.mem_of_getLast? hlast
      rcases ih _ _ _ h with h | ⟨S, hS, h⟩
      · dsimp only at h
        split at h
        · rename_i hcond
          simp only [Bool.and_eq_true, decide_eq_true_eq, Bool.not_eq_true'] at hcond
          exact Or.inr ⟨R, List.mem_cons_self, hcond.2, _, hmem, h⟩
        · exact Or.inl h
      · exact Or.inr ⟨S, List.mem_cons_of_mem _ hS, h⟩

/-- a group that is found: what is recorded for the children -/
theorem found_children (mf : MatchFns) (text : Str) (info : GInfo) (startL normalL endL : List LineRx)
    (d : Bool) (children : List Grp) (start : Nat) (stop : Option Nat) (hw : ∀ e, stop = some e → start ≤ e)
    (env env' : Env) (r : RawDict)
    (h : runRe mf text (.mk info startL normalL endL d children) start stop env [] = .ok (env', r))
    (s : Nat) (hs : FirstMatch startL (slice text start stop) s) :
    ∃ (e : Option Nat) (se : Nat) (stop' : Option Nat),
      (se = 0 ∨ ∃ S ∈ startL, S.isLine = false ∧ ∃ a ∈ Re.finditer S.re (slice text start stop), se = a.stop + start) ∧
      stop' = (match e with
        | none => stop
        | some y => some (start + s + y)) ∧
      (∀ y, e = some y → ∃ R ∈ endL, ∃ m ∈ Re.finditer R.re (slice text (start + s) stop), y = m.stop) ∧
      (∀ R ∈ endL, ∀ m, (Re.finditer R.re (slice text (start + s) stop)).getLast? = some m → se < m.stop →
        ∃ y, e = some y ∧ m.stop ≤ y) ∧
      (∀ e', stop = some e' → ∃ y, stop' = some y ∧ y ≤ e') ∧
      ∀ p x, Recorded r p x → x.info ≠ info →
        x.info ∈ infosAll children ∧ ((start + s ≤ p ∧ InWin stop' p) ∨ (10000000 ≤ p ∧ x.data = some [])) := by
  simp only [runRe, bind_ok_iff] at h
  obtain ⟨⟨si, e1, r1⟩, h1, h⟩ := h
  have hse := runStarts_se _ _ _ _ _ _ _ _ _ _ _ _ h1
  obtain ⟨hsf, l1, hl1, rfl⟩ := runStarts_log _ _ _ _ _ _ _ _ _ _ _ h1
  dsimp only at h
  obtain ⟨R, hR, m, hm, hms⟩ := hs.1
  cases hsi : si.s with
  | none =>
    rw [hsi] at hsf
    have := hsf R hR
    rw [this] at hm; cases hm
  | some s' =>
    rw [hsi] at h hsf
    have hss : s' = s := by
      obtain ⟨R2, hR2, m2, hm2, hms2⟩ := hsf.1
      have a := hsf.2 R hR m hm
      have b := hs.2 R2 hR2 m2 hm2
      omega
    subst hss
    simp only [bind_ok_iff] at h
    obtain ⟨⟨e, e2, r2⟩, h2, h⟩ := h
    obtain ⟨⟨l2, hl2, rfl⟩, he1, _, he3⟩ := runEnds_log _ _ _ _ _ _ _ _ _ _ _ _ _ h2
    have hsw : InWin stop (start + s') := by
      intro e he
      have h3 := (Re.finditer_sound _ _ _ hm).1
      have h4 := hw e he
      subst he
      have h5 := slice_length text start e
      omega
    have hg2 := good_logDict _ l2 (good_logDict [] l1 good_nil)
    have own : ∀ p x, Recorded (logDict (logDict [] l1) l2) p x → x.info = info := by
      intro p x hx
      rcases (recorded_logDict _ (good_logDict [] l1 good_nil) l2 p x).1 hx with hx | hx
      · rcases (recorded_logDict _ good_nil l1 p x).1 hx with ⟨_, hx, _⟩ | hx
        · cases hx
        · exact (linesLog_new hl1 hw p x hx).1
      · exact (linesLog_new hl2 hsw p x hx).1
    have fin : ∀ stop' r3, Good r3 → (∀ p x, Recorded r3 p x → x.info = info) →
        InWin stop' (start + s') →
        (∃ q, runNormals mf text info (start + s') stop' normalL e2 r3 = .ok q ∧
          runChildren mf text children (start + s') stop' q.1 q.2 = .ok (env', r)) →
        ∀ p x, Recorded r p x → x.info ≠ info → x.info ∈ infosAll children ∧
          ((start + s' ≤ p ∧ InWin stop' p) ∨ (10000000 ≤ p ∧ x.data = some [])) := by
      rintro stop' r3 hg3 hown hw' ⟨⟨e3, r4⟩, h3, h4⟩ p x hx hc
      obtain ⟨l3, hl3, rfl⟩ := runNormals_log _ _ _ _ _ _ _ _ _ _ h3
      have hc' := runChildren_entries mf text children (start + s') stop' e3 env' _ r (good_logDict _ l3 hg3) hw' h4
      rcases hc'.2 p x hx with hx | hx
      · rcases (recorded_logDict _ hg3 l3 p x).1 hx with hx | hx
        · exact absurd (hown p x hx) hc
        · exact absurd (linesLog_new hl3 hw' p x hx).1 hc
      · exact hx
    have ends : ∀ y, e = some y → ∃ R ∈ endL, ∃ m ∈ Re.finditer R.re (slice text (start + s') stop), y = m.stop := by
      intro y hy
      rcases he1 y hy with h | ⟨R, hR, m, hm, h, _⟩
      · cases h
      · exact ⟨R, hR, m, hm, h⟩
    refine ⟨e, si.se, _, hse, rfl, ends, he3, ?_, ?_⟩
    · intro e' he'
      cases e with
      | none => exact ⟨e', he', Nat.le_refl _⟩
      | some y =>
        refine ⟨_, rfl, ?_⟩
        obtain ⟨R, _, m, hm, rfl⟩ := ends y rfl
        have h6 := finditer_stop _ _ _ hm
        have h7 := hsw e' he'
        subst he'
        have h8 := slice_length text (start + s') e'
        omega
    · cases e with
      | none => exact fin stop _ hg2 own hsw h
      | some y =>
        exact fin (some (start + s' + y)) _ (good_cleanup _ _ _ hg2) (fun p x hx => own p x (recorded_cleanup _ _ _ _ _ hx))
          (by (intro e he; simp only [Option.some.injEq] at he; omega)) h

theorem runStarts_noMatch (mf : MatchFns) (text : Str) (info : GInfo) (start : Nat) (stop : Option Nat)
    (Rs : List LineRx) (si : StartInfo) (env : Env) (r : RawDict) (hn : NoMatch Rs (slice text start stop)) :
    runStarts mf text info start stop Rs si env r = .ok (si, env, r) := by
  induction Rs with
  | nil => rfl
  | cons R Rs ih =>
    simp only [runStarts]
    rw [hn R List.mem_cons_self]
    exact ih (fun R hR => hn R (List.mem_cons_of_mem _ hR))

/-- a group that is not found -/
theorem absent_children (mf : MatchFns) (text : Str) (info : GInfo) (startL normalL endL : List LineRx)
    (d : Bool) (children : List Grp) (start : Nat) (stop : Option Nat)
    (env env' : Env) (r r' : RawDict) (hn : NoMatch startL (slice text start stop))
    (h : runRe mf text (.mk info startL normalL endL d children) start stop env r = .ok (env', r')) :
    runDefaultChildren mf text startL.isEmpty children start stop env
      (if d then addDefault info startL r else r) = .ok (env', r') := by
  simp only [runRe, runStarts_noMatch mf text info start stop startL _ env r hn, ok_bind] at h
  exact h

theorem recorded_log_keeps (r : RawDict) (hg : Good r) (log : List (Nat × RawHit)) (p : Nat) (x : RawHit)
    (h : Recorded r p x) : Recorded (logDict r log) p x := (recorded_logDict r hg log p x).2 (Or.inl h)

mutual
/-- what is recorded for other groups stays -/
theorem runRe_keeps (mf : MatchFns) (text : Str) (g : Grp) (start : Nat) (stop : Option Nat) (env env' : Env)
    (r r' : RawDict) (hg : Good r) (hw : InWin stop start) (h : runRe mf text g start stop env r = .ok (env', r'))
    (p : Nat) (x : RawHit) (hx : Recorded r p x) (hi : ∀ i ∈ g.infos, i.uid ≠ x.info.uid) : Recorded r' p x := by
  match g, h, hi with
  | .mk info startL normalL endL d children, h, hi =>
    simp only [runRe, bind_ok_iff] at h
    obtain ⟨⟨si, e1, r1⟩, h1, h⟩ := h
    obtain ⟨hs, l1, hl1, rfl⟩ := runStarts_log _ _ _ _ _ _ _ _ _ _ _ h1
    have hg1 := good_logDict r l1 hg
    have hx1 := recorded_log_keeps r hg l1 p x hx
    have hic : ∀ i ∈ infosAll children, i.uid ≠ x.info.uid := fun i hm => hi i (by simp [Grp.infos, hm])
    dsimp only at h
    cases hsi : si.s with
    | none =>
      rw [hsi] at h hs
      dsimp only at h
      refine runDefaultChildren_keeps mf text startL.isEmpty children start stop e1 env' _ r' ?_ hw h p x ?_ hic
      · split
        · exact good_addDefault _ _ _ hg1
        · exact hg1
      · split
        · exact (recorded_addDefault _ _ _ hg1 _ _).2 (Or.inr hx1)
        · exact hx1
    | some s =>
      rw [hsi] at h hs
      simp only [bind_ok_iff] at h
      obtain ⟨⟨e, e2, r2⟩, h2, h⟩ := h
      obtain ⟨⟨l2, hl2, rfl⟩, he1, _, _⟩ := runEnds_log _ _ _ _ _ _ _ _ _ _ _ _ _ h2
      have hsw : InWin stop (start + s) := by
        intro e he
        obtain ⟨R, _, m, hm, rfl⟩ := hs.1
        have h3 := (Re.finditer_sound _ _ _ hm).1
        have h4 := hw e he
        subst he
        have h5 := slice_length text start e
        omega
      have hg2 := good_logDict _ l2 hg1
      have hx2 := recorded_log_keeps _ hg1 l2 p x hx1
      have fin : ∀ stop' r3, Good r3 → Recorded r3 p x → InWin stop' (start + s) →
          (∃ q, runNormals mf text info (start + s) stop' normalL e2 r3 = .ok q ∧
            runChildren mf text children (start + s) stop' q.1 q.2 = .ok (env', r')) → Recorded r' p x := by
        rintro stop' r3 hg3 hx3 hw' ⟨⟨e3, r4⟩, h3, h4⟩
        obtain ⟨l3, hl3, rfl⟩ := runNormals_log _ _ _ _ _ _ _ _ _ _ h3
        exact runChildren_keeps mf text children (start + s) stop' e3 env' _ r' (good_logDict _ l3 hg3) hw' h4 p x
          (recorded_log_keeps _ hg3 l3 p x hx3) hic
      cases e with
      | none => exact fin stop _ hg2 hx2 hsw h
      | some y =>
        refine fin (some (start + s + y)) _ (good_cleanup _ _ _ hg2) (cleanup_keeps _ _ _ _ _ hx2 (Or.inl ?_)) 
          (by (intro e he; simp only [Option.some.injEq] at he; omega)) h
        exact Ne.symm (hi info (by simp [Grp.infos]))
theorem runChildren_keeps (mf : MatchFns) (text : Str) (gs : List Grp) (start : Nat) (stop : Option Nat) (env env' : Env)
    (r r' : RawDict) (hg : Good r) (hw : InWin stop start) (h : runChildren mf text gs start stop env r = .ok (env', r'))
    (p : Nat) (x : RawHit) (hx : Recorded r p x) (hi : ∀ i ∈ infosAll gs, i.uid ≠ x.info.uid) : Recorded r' p x := by
  match gs, h, hi with
  | [], h, _ =>
    simp only [runChildren, pure_ok, Except.ok.injEq, Prod.mk.injEq] at h
    rw [← h.2]; exact hx
  | g :: gs, h, hi =>
    simp only [runChildren, bind_ok_iff] at h
    obtain ⟨⟨e1, r1⟩, h1, h2⟩ := h
    have a := runRe_keeps mf text g start stop env e1 r r1 hg hw h1 p x hx (fun i hm => hi i (by simp [infosAll, hm]))
    exact runChildren_keeps mf text gs start stop e1 env' r1 r' (runRe_entries mf text g start stop env e1 r r1 hg hw h1).1 hw h2 p x a
      (fun i hm => hi i (by simp [infosAll, hm]))
theorem runDefaultChildren_keeps (mf : MatchFns) (text : Str) (b : Bool) (gs : List Grp) (start : Nat) (stop : Option Nat)
    (env env' : Env) (r r' : RawDict) (hg : Good r) (hw : InWin stop start)
    (h : runDefaultChildren mf text b gs start stop env r = .ok (env', r'))
    (p : Nat) (x : RawHit) (hx : Recorded r p x) (hi : ∀ i ∈ infosAll gs, i.uid ≠ x.info.uid) : Recorded r' p x := by
  match gs, h, hi with
  | [], h, _ =>
    simp only [runDefaultChildren, pure_ok, Except.ok.injEq, Prod.mk.injEq] at h
    rw [← h.2]; exact hx
  | g :: gs, h, hi =>
    have h' : (if b || g.hasDefault then runRe mf text g start stop env r else pure (env, r)) >>= (fun q =>
        runDefaultChildren mf text b gs start stop q.1 q.2) = .ok (env', r') := by
      rw [← h]; simp only [runDefaultChildren]; split <;> rfl
    rw [bind_ok_iff] at h'
    obtain ⟨⟨e1, r1⟩, h1, h2⟩ := h'
    have a : Good r1 ∧ Recorded r1 p x := by
      split at h1
      · exact ⟨(runRe_entries mf text g start stop env e1 r r1 hg hw h1).1,
          runRe_keeps mf text g start stop env e1 r r1 hg hw h1 p x hx (fun i hm => hi i (by simp [infosAll, hm]))⟩
      · simp only [pure_ok, Except.ok.injEq, Prod.mk.injEq] at h1
        rw [← h1.2]; exact ⟨hg, hx⟩
    exact runDefaultChildren_keeps mf text b gs start stop e1 env' r1 r' a.1 hw h2 p x a.2
      (fun i hm => hi i (by simp [infosAll, hm]))
end

end TTP
