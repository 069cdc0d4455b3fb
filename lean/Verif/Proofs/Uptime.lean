import Verif.Model.Match
import Verif.Spec.Uptime
import Verif.Proofs.Regex
import Verif.Proofs.PyStr
/-!
# Proofs about `uptimeparse`
-/

namespace TTP
open Py Spec

namespace MatchFn

/-- the alternatives of a unit -/
def unitAlts : TUnit → List Re
  | .years => [.seq (ci 'y') optS, .seq (ciWord c!"yr") (.seq optS optDot), .seq (ciWord c!"year") optS]
  | .months => [.seq (ciWord c!"mo") (.seq optS optDot), .seq (ciWord c!"mth") (.seq optS optDot), .seq (ciWord c!"month") optS]
  | .weeks => [ci 'w', .seq (ciWord c!"wk") optS, .seq (ciWord c!"week") optS]
  | .days => [ci 'd', .seq (ciWord c!"dy") optS, .seq (ciWord c!"day") optS]
  | .hours => [ci 'h', .seq (ciWord c!"hr") optS, .seq (ciWord c!"hour") optS]
  | .mins => [ci 'm', .seq (ciWord c!"min") optS, .seq (ciWord c!"minute") optS]
  | .secs => [ci 's', .seq (ciWord c!"sec") optS, .seq (ciWord c!"second") optS]

/-- the class of the digits -/
def unitCls : TUnit → CC
  | .years => .digit
  | .months => .digit
  | _ => .oneOf c!"0123456789."

/-- the expression of a unit -/
def unitRe (u : TUnit) : Re := .seq (.cap u.name (Re.plus true (.cls (unitCls u)))) (.seq sp0 (alts (unitAlts u)))

/-- the stage of a unit: optional, with a separator except for the last -/
def stageRe (u : TUnit) : Re := if u = .secs then opt (unitRe u) else optSep (unitRe u)

/-- the rest of the expression -/
def tailRe : List TUnit → Re
  | [] => Re.seqs [sp0, .eos]
  | u :: us => .seq sp0 (.seq (stageRe u) (tailRe us))

theorem upRe_tail : upRe = tailRe TUnit.all := rfl

/-- a text that no stage can begin with, and that is not the end -/
def Dead (t : Str) : Prop := ∃ c cs, t = c :: cs ∧ isSpace c = false ∧ isDigit c = false ∧ c ≠ '.'

theorem oneOf_digits (c : Char) : (CC.oneOf c!"0123456789.").test c = true → isDigit c = true ∨ c = '.' := by
  intro h
  simp only [CC.test, List.contains_eq_mem, decide_eq_true_eq, List.mem_cons, List.not_mem_nil, or_false] at h
  rcases h with rfl | rfl | rfl | rfl | rfl | rfl | rfl | rfl | rfl | rfl | rfl <;> first | exact .inr rfl | exact .inl (by decide)

theorem unitCls_test (u : TUnit) (c : Char) (h : (unitCls u).test c = true) : isDigit c = true ∨ c = '.' := by
  cases u <;> first | exact .inl h | exact oneOf_digits c h

theorem digit_oneOf (c : Char) (h : isDigit c = true) : (CC.oneOf c!"0123456789.").test c = true := by
  have h : 48 ≤ c.toNat ∧ c.toNat ≤ 57 := by simpa [isDigit] using h
  have hc : c = Char.ofNat c.toNat := (Char.ofNat_toNat c).symm
  have : ∀ n : Nat, 48 ≤ n → n ≤ 57 → (CC.oneOf c!"0123456789.").test (Char.ofNat n) = true := by
    intro n h1 h2
    have : n = 48 ∨ n = 49 ∨ n = 50 ∨ n = 51 ∨ n = 52 ∨ n = 53 ∨ n = 54 ∨ n = 55 ∨ n = 56 ∨ n = 57 := by omega
    rcases this with rfl | rfl | rfl | rfl | rfl | rfl | rfl | rfl | rfl | rfl <;> decide
  rw [hc]; exact this _ h.1 h.2

theorem unitCls_digit (u : TUnit) (c : Char) (h : isDigit c = true) : (unitCls u).test c = true := by
  cases u <;> first | exact h | exact digit_oneOf c h

/-- a hit of a unit begins with a digit or a dot -/
theorem unit_start (u : TUnit) (s : Str) (h : Re.Hit) (hm : h ∈ Re.run (unitRe u) s) : ∃ c cs, s = c :: cs ∧ (isDigit c = true ∨ c = '.') := by
  obtain ⟨h1, m1, h2, m2, _⟩ := (Re.mem_seq _ _ _ _).1 hm
  obtain ⟨h3, m3, rfl⟩ := (Re.mem_cap _ _ _ _).1 m1
  obtain ⟨hne, hall, hs, _⟩ := (Re.mem_plus_cls _ _ _ _).1 m3
  cases h3e : h3.1 with
  | nil => exact absurd h3e hne
  | cons c cs =>
    refine ⟨c, cs ++ h3.2.1, ?_, unitCls_test u c (hall c (by rw [h3e]; simp))⟩
    rw [← hs, h3e]; rfl

theorem mem_opt (r : Re) (s : Str) (h : Re.Hit) : h ∈ Re.run (opt r) s ↔ h ∈ Re.run r s ∨ h = ([], s, []) := by
  unfold opt
  rw [Re.mem_alt, Re.mem_eps]

/-- a stage: skipped, or a unit and something that captures nothing -/
theorem mem_stage (u : TUnit) (s : Str) (h : Re.Hit) : h ∈ Re.run (stageRe u) s ↔ h = ([], s, []) ∨
    ∃ h1 ∈ Re.run (unitRe u) s,
      if u = .secs then h = h1 else
        ∃ h2 ∈ Re.run (.seq sp0 (opt (.seq (.cls (.oneOf [',', '/'])) sp0))) h1.2.1, h = (h1.1 ++ h2.1, h2.2.1, h1.2.2 ++ h2.2.2) := by
  unfold stageRe
  by_cases hu : u = .secs
  · simp only [hu, if_true]
    rw [mem_opt]
    constructor
    · rintro (hm | hm)
      · exact .inr ⟨h, hm, rfl⟩
      · exact .inl hm
    · rintro (hm | ⟨h1, m1, rfl⟩)
      · exact .inr hm
      · exact .inl m1
  · simp only [if_neg hu]
    unfold optSep
    rw [mem_opt, Re.mem_seq]
    constructor
    · rintro (⟨h1, m1, h2, m2, e⟩ | h)
      · exact .inr ⟨h1, m1, h2, m2, e⟩
      · exact .inl h
    · rintro (h | ⟨h1, m1, h2, m2, e⟩)
      · exact .inr h
      · exact .inl ⟨h1, m1, h2, m2, e⟩

/-- blanks at the beginning -/
theorem mem_sp0 (s : Str) (h : Re.Hit) : h ∈ Re.run sp0 s ↔ (∀ x ∈ h.1, isSpace x = true) ∧ h.1 ++ h.2.1 = s ∧ h.2.2 = [] :=
  Re.mem_star_cls true .space s h

theorem sp0_nonspace (c : Char) (cs : Str) (hc : isSpace c = false) (h : Re.Hit) (hm : h ∈ Re.run sp0 (c :: cs)) : h = ([], c :: cs, []) := by
  obtain ⟨ha, hs, hc'⟩ := (mem_sp0 _ _).1 hm
  obtain ⟨a, b, caps⟩ := h
  simp only at ha hs hc'
  subst hc'
  cases a with
  | nil => simp only [List.nil_append] at hs; subst hs; rfl
  | cons x xs =>
    simp only [List.cons_append, List.cons.injEq] at hs
    have := ha x (by simp)
    rw [hs.1, hc] at this; cases this

theorem sp0_nil (h : Re.Hit) (hm : h ∈ Re.run sp0 []) : h = ([], [], []) := by
  obtain ⟨ha, hs, hc'⟩ := (mem_sp0 _ _).1 hm
  obtain ⟨a, b, caps⟩ := h
  simp only at ha hs hc'
  have := List.append_eq_nil_iff.1 hs
  rw [this.1, this.2, hc']

theorem eos_iff (s : Str) (h : Re.Hit) : h ∈ Re.run .eos s ↔ (s = [] ∨ s = ['\n']) ∧ h = ([], s, []) := by
  simp only [Re.run]
  split
  · rename_i he
    have he : s = [] ∨ s = ['\n'] := by simpa using he
    simp [he]
  · rename_i he
    have he : ¬ (s = [] ∨ s = ['\n']) := by simpa using he
    simp [he]

/-- no stage and no end on a dead text -/
theorem dead_tail (us : List TUnit) (t : Str) (hd : Dead t) (h : Re.Hit) : h ∉ Re.run (tailRe us) t := by
  obtain ⟨c, cs, rfl, hs, hdg, hdot⟩ := hd
  induction us generalizing h with
  | nil =>
    intro hm
    obtain ⟨h1, m1, h2, m2, _⟩ := (Re.mem_seq _ _ _ _).1 hm
    rw [sp0_nonspace c cs hs h1 m1] at m2
    obtain ⟨h3, m3, _⟩ := (Re.mem_seq _ _ _ _).1 m2
    rcases ((eos_iff _ _).1 m3).1 with e | e
    · cases e
    · simp only [List.cons.injEq] at e
      rw [e.1] at hs; revert hs; decide
  | cons u us ih =>
    intro hm
    obtain ⟨h1, m1, h2, m2, _⟩ := (Re.mem_seq _ _ _ _).1 hm
    rw [sp0_nonspace c cs hs h1 m1] at m2
    obtain ⟨h3, m3, h4, m4, _⟩ := (Re.mem_seq _ _ _ _).1 m2
    rcases (mem_stage _ _ _).1 m3 with e | ⟨h5, m5, _⟩
    · rw [e] at m4; exact ih h4 m4
    · obtain ⟨c', cs', e, hh⟩ := unit_start u _ h5 m5
      simp only [List.cons.injEq] at e
      rw [← e.1] at hh
      rcases hh with hh | hh
      · rw [hdg] at hh; cases hh
      · exact hdot hh

/-- the word of an amount -/
def wordOf (u : TUnit) (p : Bool) : Str := u.word ++ if p then ['s'] else []

/-- what follows an amount -/
def Follows (R : Str) : Prop := R = [] ∨ ∃ R', R = ',' :: ' ' :: R'

/-- a dead text that does not begin with a separator -/
def DeadL (t : Str) : Prop := ∃ c cs, t = c :: cs ∧ isSpace c = false ∧ isDigit c = false ∧ c ≠ '.' ∧ c ≠ ',' ∧ c ≠ '/'

theorem deadL_of (c : Char) (cs : Str) (h : (isSpace c = false ∧ isDigit c = false ∧ c ≠ '.' ∧ c ≠ ',' ∧ c ≠ '/')) : DeadL (c :: cs) :=
  ⟨c, cs, rfl, h⟩

theorem DeadL.dead {t : Str} (h : DeadL t) : Dead t := by
  obtain ⟨c, cs, e, h1, h2, h3, _⟩ := h
  exact ⟨c, cs, e, h1, h2, h3⟩

theorem digits_natStr (n : Nat) (c : Char) (h : c ∈ natStr n) : isDigit c = true := List.all_eq_true.1 (natStr_digits n) c h

theorem dead_of (c : Char) (cs : Str) (h : (isSpace c = false ∧ isDigit c = false ∧ c ≠ '.')) : Dead (c :: cs) :=
  ⟨c, cs, rfl, h.1, h.2.1, h.2.2⟩

set_option maxRecDepth 4000 in
/-- what the words of a unit match in a word -/
theorem alts_hits (u v : TUnit) (p : Bool) (R : Str) (hR : Follows R) (h : Re.Hit) (hm : h ∈ Re.run (alts (unitAlts u)) (wordOf v p ++ R)) :
    (u = v ∧ h = (wordOf v p, R, [])) ∨ DeadL h.2.1 := by
  rcases hR with rfl | ⟨R', rfl⟩ <;> cases u <;> cases v <;> cases p <;>
    simp [alts, unitAlts, wordOf, TUnit.word, Re.run, ci, ciWord, Re.seqs, optS, optDot, opt, CC.test] at hm ⊢ <;>
    (first
      | (rcases hm with rfl | rfl | rfl | rfl <;> first | (left; rfl) | exact .inr (deadL_of _ _ (by decide)))
      | (rcases hm with rfl | rfl | rfl <;> first | (left; rfl) | exact .inr (deadL_of _ _ (by decide)))
      | (rcases hm with rfl | rfl <;> first | (left; rfl) | exact .inr (deadL_of _ _ (by decide)))
      | (subst hm; exact deadL_of _ _ (by decide)))

set_option maxRecDepth 4000 in
/-- the whole word is matched -/
theorem alts_own (v : TUnit) (p : Bool) (R : Str) (hR : Follows R) : (wordOf v p, R, []) ∈ Re.run (alts (unitAlts v)) (wordOf v p ++ R) := by
  rcases hR with rfl | ⟨R', rfl⟩ <;> cases v <;> cases p <;>
    simp [alts, unitAlts, wordOf, TUnit.word, Re.run, ci, ciWord, Re.seqs, optS, optDot, opt, CC.test]

/-- the words of a unit begin with a letter -/
theorem alts_letter (u : TUnit) (c : Char) (cs : Str) (hc : isDigit c = true ∨ isSpace c = true) : Re.run (alts (unitAlts u)) (c :: cs) = [] := by
  have h1 : ∀ x ∈ c!"yYmMwWdDhHsS", c ≠ x := by
    intro x hx e
    subst e
    revert hc
    simp only [List.mem_cons, List.not_mem_nil, or_false] at hx
    rcases hx with rfl | rfl | rfl | rfl | rfl | rfl | rfl | rfl | rfl | rfl | rfl | rfl <;> decide
  have h2 := fun x hx => Ne.symm (h1 x hx)
  cases u <;> simp [alts, unitAlts, Re.run, ci, ciWord, Re.seqs, CC.test, h1] 

/-- the text of an amount -/
theorem amount_eq (v : TUnit) (a : Nat × Bool) : amountText v a = natStr a.1 ++ ' ' :: wordOf v a.2 := rfl

/-- what a unit matches in an amount -/
theorem unit_hits (u v : TUnit) (a : Nat × Bool) (R : Str) (hR : Follows R) (h : Re.Hit) (hm : h ∈ Re.run (unitRe u) (amountText v a ++ R)) :
    (u = v ∧ h = (amountText v a, R, [(v.name, natStr a.1)])) ∨ DeadL h.2.1 := by
  obtain ⟨h1, m1, h2, m2, rfl⟩ := (Re.mem_seq _ _ _ _).1 hm
  obtain ⟨h3, m3, rfl⟩ := (Re.mem_cap _ _ _ _).1 m1
  obtain ⟨hne, hall, hs, hc⟩ := (Re.mem_plus_cls _ _ _ _).1 m3
  obtain ⟨h4, m4, h5, m5, rfl⟩ := (Re.mem_seq _ _ _ _).1 m2
  obtain ⟨d, rest, caps⟩ := h3
  simp only at hne hall hs hc m4 m5 ⊢
  subst hc
  rw [amount_eq, List.append_assoc, List.cons_append] at hs
  -- the digits are all taken
  rcases List.append_eq_append_iff.1 hs with ⟨x, hx, hr⟩ | ⟨x, hx, hr⟩
  · -- d ++ x = natStr
    cases x with
    | nil =>
      simp only [List.append_nil, List.nil_append] at hx hr
      subst hr
      obtain ⟨ha, hs4, hc4⟩ := (mem_sp0 _ _).1 m4
      obtain ⟨w, r4, c4⟩ := h4
      simp only at ha hs4 hc4 m5 ⊢
      subst hc4
      cases w with
      | nil =>
        simp only [List.nil_append] at hs4
        subst hs4
        rw [alts_letter u ' ' _ (.inr (by decide))] at m5; cases m5
      | cons b w =>
        simp only [List.cons_append, List.cons.injEq] at hs4
        obtain ⟨rfl, hs4⟩ := hs4
        have hw0 : ∃ c cs, wordOf v a.2 = c :: cs ∧ isSpace c = false := by
          cases v <;> exact ⟨_, _, rfl, by decide⟩
        obtain ⟨c, cs, hwc, hsp⟩ := hw0
        cases w with
        | cons b2 w =>
          rw [hwc] at hs4
          simp only [List.cons_append, List.cons.injEq] at hs4
          have := ha b2 (by simp)
          rw [hs4.1, hsp] at this; cases this
        | nil =>
          simp only [List.nil_append] at hs4
          subst hs4
          rcases alts_hits u v a.2 R hR h5 m5 with ⟨rfl, rfl⟩ | hd
          · left
            refine ⟨rfl, ?_⟩
            rw [amount_eq, hx]; simp
          · exact .inr hd
    | cons c x =>
      have hdg : isDigit c = true := digits_natStr a.1 c (by rw [hx]; simp)
      rw [List.cons_append] at hr
      subst hr
      have hnsp : isSpace c = false := by
        have := (isDigit_not_space' c hdg); exact this
      rw [sp0_nonspace c _ hnsp h4 m4] at m5
      rw [alts_letter u c _ (.inl hdg)] at m5; cases m5
  · -- natStr ++ x = d
    cases x with
    | cons c x =>
      simp only [List.cons_append, List.cons.injEq] at hr
      have := unitCls_test u c (hall c (by rw [hx]; simp))
      rw [← hr.1] at this
      exfalso; revert this; decide
    | nil =>
      simp only [List.append_nil, List.nil_append] at hx hr
      subst hr
      obtain ⟨ha, hs4, hc4⟩ := (mem_sp0 _ _).1 m4
      obtain ⟨w, r4, c4⟩ := h4
      simp only at ha hs4 hc4 m5 ⊢
      subst hc4
      cases w with
      | nil =>
        simp only [List.nil_append] at hs4
        subst hs4
        rw [alts_letter u ' ' _ (.inr (by decide))] at m5; cases m5
      | cons b w =>
        simp only [List.cons_append, List.cons.injEq] at hs4
        obtain ⟨rfl, hs4⟩ := hs4
        have hw0 : ∃ c cs, wordOf v a.2 = c :: cs ∧ isSpace c = false := by
          cases v <;> exact ⟨_, _, rfl, by decide⟩
        obtain ⟨c, cs, hwc, hsp⟩ := hw0
        cases w with
        | cons b2 w =>
          rw [hwc] at hs4
          simp only [List.cons_append, List.cons.injEq] at hs4
          have := ha b2 (by simp)
          rw [hs4.1, hsp] at this; cases this
        | nil =>
          simp only [List.nil_append] at hs4
          subst hs4
          rcases alts_hits u v a.2 R hR h5 m5 with ⟨rfl, rfl⟩ | hd
          · left
            refine ⟨rfl, ?_⟩
            rw [amount_eq, hx]; simp
          · exact .inr hd

theorem unit_own (v : TUnit) (a : Nat × Bool) (R : Str) (hR : Follows R) :
    (amountText v a, R, [(v.name, natStr a.1)]) ∈ Re.run (unitRe v) (amountText v a ++ R) := by
  refine (Re.mem_seq _ _ _ _).2 ⟨(natStr a.1, ' ' :: (wordOf v a.2 ++ R), [(v.name, natStr a.1)]), ?_,
    (' ' :: wordOf v a.2, R, []), ?_, ?_⟩
  · refine (Re.mem_cap _ _ _ _).2 ⟨(natStr a.1, ' ' :: (wordOf v a.2 ++ R), []), ?_, rfl⟩
    refine (Re.mem_plus_cls _ _ _ _).2 ⟨natStr_ne_nil _, fun x hx => unitCls_digit v x (digits_natStr _ x hx), ?_, rfl⟩
    rw [amount_eq]; simp
  · refine (Re.mem_seq _ _ _ _).2 ⟨([' '], wordOf v a.2 ++ R, []), ?_, (wordOf v a.2, R, []), alts_own v a.2 R hR, by simp⟩
    exact (mem_sp0 _ _).2 ⟨by intro x hx; rw [List.mem_singleton.1 hx]; decide, rfl, rfl⟩
  · rw [amount_eq]; simp

/-- the amounts, one after the other -/
def amounts (L : List (TUnit × (Nat × Bool))) : Str := join [',', ' '] (L.map (fun x => amountText x.1 x.2))

/-- what they capture -/
def capsOf (L : List (TUnit × (Nat × Bool))) : Re.Caps := L.map (fun x => (x.1.name, natStr x.2.1))

theorem amounts_cons (x : TUnit × (Nat × Bool)) (L : List (TUnit × (Nat × Bool))) :
    ∃ R, amounts (x :: L) = amountText x.1 x.2 ++ R ∧ Follows R ∧ ((L = [] ∧ R = []) ∨ (L ≠ [] ∧ R = ',' :: ' ' :: amounts L)) := by
  cases L with
  | nil => exact ⟨[], by simp [amounts, join], .inl rfl, .inl ⟨rfl, rfl⟩⟩
  | cons y L =>
    refine ⟨',' :: ' ' :: amounts (y :: L), ?_, .inr ⟨_, rfl⟩, .inr ⟨by simp, rfl⟩⟩
    simp [amounts, join]

theorem amounts_head (x : TUnit × (Nat × Bool)) (L : List (TUnit × (Nat × Bool))) :
    ∃ c cs, amounts (x :: L) = c :: cs ∧ isDigit c = true := by
  obtain ⟨R, hR, _⟩ := amounts_cons x L
  rw [hR, amount_eq]
  cases h : natStr x.2.1 with
  | nil => exact absurd h (natStr_ne_nil _)
  | cons c cs => exact ⟨c, _, rfl, digits_natStr x.2.1 c (by rw [h]; simp)⟩

/-- the separator after an amount -/
theorem sep_hits (R : Str) (h : Re.Hit) (hm : h ∈ Re.run (.seq sp0 (opt (.seq (.cls (.oneOf [',', '/'])) sp0))) (',' :: ' ' :: R)) :
    h.2.2 = [] ∧ (Dead h.2.1 ∨ ∃ w, (∀ x ∈ w, isSpace x = true) ∧ ∃ w', w ++ h.2.1 = ' ' :: R ∧ w' = w) := by
  obtain ⟨h1, m1, h2, m2, rfl⟩ := (Re.mem_seq _ _ _ _).1 hm
  rw [sp0_nonspace ',' _ (by decide) h1 m1] at m2 ⊢
  rcases (mem_opt _ _ _).1 m2 with m2 | rfl
  · obtain ⟨h3, m3, h4, m4, rfl⟩ := (Re.mem_seq _ _ _ _).1 m2
    obtain ⟨x, xs, e, _, rfl⟩ := (Re.mem_cls _ _ _).1 m3
    simp only [List.cons.injEq] at e
    obtain ⟨rfl, rfl⟩ := e
    obtain ⟨ha, hs, hc⟩ := (mem_sp0 _ _).1 m4
    refine ⟨by simp [hc], .inr ⟨h4.1, ha, h4.1, hs, rfl⟩⟩
  · exact ⟨rfl, .inl (dead_of _ _ (by decide))⟩

/-- a text of blanks and amounts, after some of the blanks -/
theorem blanks_cut (w s ws : Str) (L : List (TUnit × (Nat × Bool))) (hw : ∀ x ∈ w, isSpace x = true) (hws : ∀ x ∈ ws, isSpace x = true)
    (h : w ++ s = ws ++ amounts L) : ∃ ws', (∀ x ∈ ws', isSpace x = true) ∧ s = ws' ++ amounts L := by
  rcases List.append_eq_append_iff.1 h with ⟨x, hx, hr⟩ | ⟨x, hx, hr⟩
  · refine ⟨x, fun y hy => hws y (by rw [hx]; simp [hy]), hr⟩
  · cases x with
    | nil => exact ⟨[], by simp, by simpa using hr.symm⟩
    | cons c x =>
      cases L with
      | nil => simp [amounts, join] at hr
      | cons y L =>
        obtain ⟨d, cs, hd, hdg⟩ := amounts_head y L
        rw [hd] at hr
        simp only [List.cons_append, List.cons.injEq] at hr
        have h1 : isSpace c = true := hw c (by rw [hx]; simp)
        rw [← hr.1, isDigit_not_space' d hdg] at h1; cases h1

/-- every way to match captures the amounts -/
theorem tail_caps (us : List TUnit) (L : List (TUnit × (Nat × Bool))) (ws : Str) (hws : ∀ x ∈ ws, isSpace x = true) (h : Re.Hit)
    (hm : h ∈ Re.run (tailRe us) (ws ++ amounts L)) : h.2.2 = capsOf L ∧ (h.2.1 = [] ∨ h.2.1 = ['\n']) := by
  induction us generalizing L ws h with
  | nil =>
    obtain ⟨h1, m1, h2, m2, rfl⟩ := (Re.mem_seq _ _ _ _).1 hm
    obtain ⟨ha, hs, hc⟩ := (mem_sp0 _ _).1 m1
    obtain ⟨h3, m3, h4, m4, rfl⟩ := (Re.mem_seq _ _ _ _).1 m2
    obtain ⟨he, rfl⟩ := (eos_iff _ _).1 m3
    have e4 := (Re.mem_eps _ _).1 m4
    subst e4
    obtain ⟨ws', hws', e⟩ := blanks_cut _ _ _ _ ha hws hs
    cases L with
    | nil => simp only [hc]; exact ⟨rfl, he⟩
    | cons y L =>
      exfalso
      obtain ⟨d, cs, hd, hdg⟩ := amounts_head y L
      rw [e, hd] at he
      rcases he with he | he
      · simp at he
      · cases ws' with
        | nil => simp only [List.nil_append, List.cons.injEq] at he; rw [he.1] at hdg; revert hdg; decide
        | cons x xs => simp at he
  | cons u us ih =>
    obtain ⟨h1, m1, h2, m2, rfl⟩ := (Re.mem_seq _ _ _ _).1 hm
    obtain ⟨ha, hs, hc⟩ := (mem_sp0 _ _).1 m1
    obtain ⟨ws', hws', e⟩ := blanks_cut _ _ _ _ ha hws hs
    obtain ⟨h3, m3, h4, m4, rfl⟩ := (Re.mem_seq _ _ _ _).1 m2
    rw [e] at m3
    simp only [hc, List.nil_append]
    rcases (mem_stage _ _ _).1 m3 with rfl | ⟨h5, m5, hx⟩
    · exact ih L ws' hws' h4 m4
    · -- the unit is taken
      obtain ⟨c, cs, ec, hdg⟩ := unit_start u _ h5 m5
      have hw0 : ws' = [] := by
        cases ws' with
        | nil => rfl
        | cons x xs =>
          simp only [List.cons_append, List.cons.injEq] at ec
          have h6 := hws' x (by simp)
          rw [ec.1] at h6
          rcases hdg with hdg | hdg
          · rw [isDigit_not_space' c hdg] at h6; cases h6
          · exfalso; rw [hdg] at h6; revert h6; decide
      subst hw0
      cases L with
      | nil => cases ec
      | cons y L =>
        obtain ⟨R, hR, hF, hL⟩ := amounts_cons y L
        rw [List.nil_append, hR] at m5
        rcases unit_hits u y.1 y.2 R hF h5 m5 with ⟨rfl, rfl⟩ | hd
        · by_cases hu : y.1 = .secs
          · rw [if_pos hu] at hx
            subst hx
            rcases hL with ⟨rfl, rfl⟩ | ⟨_, rfl⟩
            · have := ih [] [] (by simp) h4 (by simpa [amounts, join] using m4)
              rw [this.1]
              exact ⟨rfl, this.2⟩
            · exact absurd m4 (dead_tail us _ (dead_of _ _ (by decide)) h4)
          · rw [if_neg hu] at hx
            obtain ⟨h6, m6, rfl⟩ := hx
            rcases hL with ⟨rfl, rfl⟩ | ⟨_, rfl⟩
            · -- nothing follows
              obtain ⟨h7, m7, h8, m8, rfl⟩ := (Re.mem_seq _ _ _ _).1 m6
              simp only at m7
              rw [sp0_nil h7 m7] at m8 ⊢
              rcases (mem_opt _ _ _).1 m8 with m8 | rfl
              · obtain ⟨h9, m9, _⟩ := (Re.mem_seq _ _ _ _).1 m8
                obtain ⟨_, _, e, _⟩ := (Re.mem_cls _ _ _).1 m9
                cases e
              · have := ih [] [] (by simp) h4 (by simpa [amounts, join] using m4)
                simp only [this.1]
                exact ⟨rfl, this.2⟩
            · obtain ⟨hc6, hd | ⟨w, hw, _, hw2, _⟩⟩ := sep_hits _ h6 m6
              · exact absurd m4 (dead_tail us _ hd h4)
              · have hcut := blanks_cut w h6.2.1 [' '] L hw (by intro x hx; rw [List.mem_singleton.1 hx]; decide) hw2
                obtain ⟨ws2, hws2, e2⟩ := hcut
                simp only [e2] at m4
                have := ih L ws2 hws2 h4 m4
                simp only [hc6, this.1, List.append_nil]
                exact ⟨rfl, this.2⟩
        · exfalso
          by_cases hu : u = .secs
          · rw [if_pos hu] at hx
            subst hx
            exact dead_tail us _ hd.dead h4 m4
          · rw [if_neg hu] at hx
            obtain ⟨h6, m6, rfl⟩ := hx
            obtain ⟨c, cs, e5, hd1, hd2, hd3, hd4, hd5⟩ := hd
            rw [e5] at m6
            obtain ⟨h7, m7, h8, m8, rfl⟩ := (Re.mem_seq _ _ _ _).1 m6
            rw [sp0_nonspace c cs hd1 h7 m7] at m8
            rcases (mem_opt _ _ _).1 m8 with m8 | rfl
            · obtain ⟨h9, m9, _⟩ := (Re.mem_seq _ _ _ _).1 m8
              obtain ⟨x, xs, ex, hx, _⟩ := (Re.mem_cls _ _ _).1 m9
              simp only [List.cons.injEq] at ex
              rw [← ex.1] at hx
              simp [CC.test, hd4, hd5] at hx
            · exact dead_tail us _ ⟨c, cs, rfl, hd1, hd2, hd3⟩ h4 m4

/-- the end on nothing -/
theorem tail_nil (us : List TUnit) : ([], [], []) ∈ Re.run (tailRe us) [] := by
  have h0 : ([], [], []) ∈ Re.run sp0 ([] : Str) := (mem_sp0 _ _).2 ⟨by simp, rfl, rfl⟩
  induction us with
  | nil =>
    refine (Re.mem_seq _ _ _ _).2 ⟨_, h0, ([], [], []), (Re.mem_seq _ _ _ _).2 ⟨([], [], []), (eos_iff _ _).2 ⟨.inl rfl, rfl⟩, ([], [], []),
      (Re.mem_eps _ _).2 rfl, rfl⟩, rfl⟩
  | cons u us ih =>
    exact (Re.mem_seq _ _ _ _).2 ⟨_, h0, ([], [], []), (Re.mem_seq _ _ _ _).2 ⟨([], [], []), (mem_stage _ _ _).2 (.inl rfl), _, ih, rfl⟩, rfl⟩

/-- the amounts of a duration, for some units -/
def itemsOf (d : Duration) (us : List TUnit) : List (TUnit × (Nat × Bool)) := us.filterMap (fun u => (d u).map (fun a => (u, a)))

/-- there is a way to match -/
theorem tail_some (d : Duration) (us : List TUnit) (hus : ∀ a b, us = a ++ .secs :: b → b = []) (ws : Str) (hws : ws = [] ∨ ws = [' ']) (hne : ws = [] ∨ itemsOf d us ≠ []) :
    ∃ h, h ∈ Re.run (tailRe us) (ws ++ amounts (itemsOf d us)) := by
  induction us generalizing ws with
  | nil =>
    rcases hne with rfl | h
    · exact ⟨_, tail_nil []⟩
    · exact absurd rfl h
  | cons u us ih =>
    have ih := ih (fun a b e => hus (u :: a) b (by rw [e]; rfl))
    have hsp : ∀ x ∈ ws, isSpace x = true := by
      rcases hws with rfl | rfl
      · simp
      · intro x hx; rw [List.mem_singleton.1 hx]; decide
    cases hd : d u with
    | none =>
      have e : itemsOf d (u :: us) = itemsOf d us := by unfold itemsOf; rw [List.filterMap_cons]; simp [hd]
      rw [e] at hne ⊢
      obtain ⟨h, hm⟩ := ih [] (.inl rfl) (.inl rfl)
      rw [List.nil_append] at hm
      exact ⟨_, (Re.mem_seq _ _ _ _).2 ⟨(ws, amounts (itemsOf d us), []), (mem_sp0 _ _).2 ⟨hsp, rfl, rfl⟩, _,
        (Re.mem_seq _ _ _ _).2 ⟨([], amounts (itemsOf d us), []), (mem_stage _ _ _).2 (.inl rfl), h, hm, rfl⟩, rfl⟩⟩
    | some a =>
      have e : itemsOf d (u :: us) = (u, a) :: itemsOf d us := by unfold itemsOf; rw [List.filterMap_cons]; simp [hd]
      rw [e]
      obtain ⟨R, hR, hF, hL⟩ := amounts_cons (u, a) (itemsOf d us)
      rw [hR]
      have hown := unit_own u a R hF
      -- what the stage leaves
      have hst : ∃ h3 ∈ Re.run (stageRe u) (amountText u a ++ R), ∃ h4, h4 ∈ Re.run (tailRe us) h3.2.1 := by
        by_cases hu : u = .secs
        · have hnil : us = [] := hus [] us (by rw [hu]; rfl)
          subst hnil
          rcases hL with ⟨_, rfl⟩ | ⟨h, _⟩
          · refine ⟨_, (mem_stage _ _ _).2 (.inr ⟨_, hown, by rw [if_pos hu]⟩), _, tail_nil []⟩
          · exact absurd rfl h
        · rcases hL with ⟨_, rfl⟩ | ⟨hne', rfl⟩
          · refine ⟨(amountText u a, [], [(u.name, natStr a.1)]), (mem_stage _ _ _).2 (.inr ⟨_, hown, ?_⟩), _, tail_nil us⟩
            rw [if_neg hu]
            refine ⟨([], [], []), ?_, by simp⟩
            exact (Re.mem_seq _ _ _ _).2 ⟨([], [], []), (mem_sp0 _ _).2 ⟨by simp, rfl, rfl⟩, ([], [], []), (mem_opt _ _ _).2 (.inr rfl), rfl⟩
          · obtain ⟨h, hm⟩ := ih [' '] (.inr rfl) (.inr hne')
            refine ⟨(amountText u a ++ [','], ' ' :: amounts (itemsOf d us), [(u.name, natStr a.1)]), (mem_stage _ _ _).2 (.inr ⟨_, hown, ?_⟩), h, hm⟩
            rw [if_neg hu]
            refine ⟨([','], ' ' :: amounts (itemsOf d us), []), ?_, by simp⟩
            refine (Re.mem_seq _ _ _ _).2 ⟨([], ',' :: ' ' :: amounts (itemsOf d us), []), (mem_sp0 _ _).2 ⟨by simp, rfl, rfl⟩, _,
              (mem_opt _ _ _).2 (.inl ((Re.mem_seq _ _ _ _).2 ⟨([','], ' ' :: amounts (itemsOf d us), []),
                (Re.mem_cls _ _ _).2 ⟨',', _, rfl, by decide, rfl⟩, ([], ' ' :: amounts (itemsOf d us), []), (mem_sp0 _ _).2 ⟨by simp, rfl, rfl⟩, rfl⟩)), rfl⟩
      obtain ⟨h3, m3, h4, m4⟩ := hst
      exact ⟨_, (Re.mem_seq _ _ _ _).2 ⟨(ws, amountText u a ++ R, []), (mem_sp0 _ _).2 ⟨hsp, rfl, rfl⟩, _,
        (Re.mem_seq _ _ _ _).2 ⟨h3, m3, h4, m4, rfl⟩, rfl⟩⟩

theorem text_amounts (d : Duration) : d.text = amounts (itemsOf d TUnit.all) := by
  unfold Duration.text amounts itemsOf
  rw [List.map_filterMap]
  congr 1
  congr 1
  funext u
  cases d u <;> rfl

theorem text_no_nl (L : List (TUnit × (Nat × Bool))) : '\n' ∉ amounts L := by
  induction L with
  | nil => simp [amounts, join]
  | cons x L ih =>
    obtain ⟨R, hR, _, hL⟩ := amounts_cons x L
    rw [hR, amount_eq]
    have h1 : '\n' ∉ natStr x.2.1 := by
      intro h; have := digits_natStr _ _ h; revert this; decide
    have h2 : '\n' ∉ wordOf x.1 x.2.2 := by
      cases x.1 <;> cases x.2.2 <;> decide
    rcases hL with ⟨_, rfl⟩ | ⟨_, rfl⟩
    · simp [h1, h2]
    · simp [h1, h2, ih]

/-- the match of a duration -/
theorem up_match (d : Duration) : ∃ h rest, Re.run upRe d.text = h :: rest ∧ h.1 = d.text ∧ h.2.2 = capsOf (itemsOf d TUnit.all) := by
  obtain ⟨h, hm⟩ := tail_some d TUnit.all (by
    intro a b e
    have : TUnit.secs ∉ [TUnit.years, .months, .weeks, .days, .hours, .mins] := by decide
    have hl := congrArg List.reverse e
    simp only [TUnit.all, List.reverse_append, List.reverse_cons] at hl
    cases hb : b.reverse with
    | nil => simpa using hb
    | cons x xs =>
      exfalso
      rw [hb] at hl
      simp only [List.reverse_nil, List.nil_append, List.cons_append, List.append_assoc, List.cons.injEq] at hl
      have hin : TUnit.secs ∈ [TUnit.mins, .hours, .days, .weeks, .months, .years] := by
        rw [hl.2]; simp
      revert hin; decide) [] (.inl rfl) (.inl rfl)
  rw [List.nil_append, ← text_amounts, ← upRe_tail] at hm
  cases hr : Re.run upRe d.text with
  | nil => rw [hr] at hm; cases hm
  | cons x xs =>
    have hx : x ∈ Re.run upRe d.text := by rw [hr]; simp
    have hc := tail_caps TUnit.all (itemsOf d TUnit.all) [] (by simp) x (by rw [List.nil_append, ← text_amounts, ← upRe_tail]; exact hx)
    refine ⟨x, xs, rfl, ?_, hc.1⟩
    have hs := Re.run_split _ _ _ hx
    rcases hc.2 with e | e
    · rw [e, List.append_nil] at hs; exact hs
    · exfalso
      have : '\n' ∈ d.text := by rw [← hs, e]; simp
      rw [text_amounts] at this
      exact text_no_nl _ this

theorem caps_get (d : Duration) (u : TUnit) :
    Dict.get? (capsOf (itemsOf d TUnit.all)) u.name = (d u).map (fun a => natStr a.1) := by
  have h : ∀ us : List TUnit, us.Nodup → Dict.get? (capsOf (itemsOf d us)) u.name = if u ∈ us then (d u).map (fun a => natStr a.1) else none := by
    intro us hn
    induction us with
    | nil => rfl
    | cons v us ih =>
      have ih := ih (List.nodup_cons.1 hn).2
      have hv := (List.nodup_cons.1 hn).1
      unfold itemsOf at ih ⊢
      rw [List.filterMap_cons]
      cases hd : d v with
      | none =>
        simp only [Option.map_none]
        rw [ih]
        by_cases e : u = v
        · subst e; simp [hd, hv]
        · simp [e]
      | some a =>
        simp only [Option.map_some]
        unfold capsOf at ih ⊢
        rw [List.map_cons]
        simp only [Dict.get?_cons]
        have hinj : v.name = u.name ↔ v = u := by cases u <;> cases v <;> decide
        by_cases e : v = u
        · subst e; simp [hd]
        · rw [if_neg (by rw [hinj]; exact e), ih]
          have : u ≠ v := fun h => e h.symm
          simp [this]
  rw [h _ (by decide), if_pos (by cases u <;> decide)]

end MatchFn
end TTP
