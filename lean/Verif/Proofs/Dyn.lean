import Verif.Proofs.Machine
import Verif.Proofs.Regex
import Verif.Spec.Dyn
/-! # Lemmas about group paths with placeholders -/

namespace TTP
open Py Spec
open Py.Re (run scan subAux mem_seq mem_lits mem_star_cls mem_plus_cls mem_cap)

/-! ### scanning for braces -/

/-- the expression only matches at an opening brace -/
def Brace (r : Re) : Prop := run r [] = [] ∧ ∀ c cs, c ≠ '{' → run r (c :: cs) = []

theorem brace_dynRe : Brace dynRe := ⟨dynRe_run_nil, dynRe_run_ne⟩

theorem brace_dynReFor (m : Str) : Brace (dynReFor m) := by
  constructor
  · simp [dynReFor, Re.lits, Re.run]
  · intro c cs h
    have : (CC.lit '{').test c = false := by simp [CC.test]; exact fun e => h e.symm
    simp [dynReFor, Re.lits, Re.run, this]

theorem scan_pre (r : Re) (hr : Brace r) (pre rest : Str) (h : '{' ∉ pre) (pos : Nat) :
    scan r (pre ++ rest) pos 0 = scan r rest (pos + pre.length) 0 := by
  induction pre generalizing pos with
  | nil => rfl
  | cons c cs ih =>
    simp only [List.mem_cons, not_or] at h
    rw [List.cons_append, scan, hr.2 c _ (fun e => h.1 e.symm)]
    simp only [ih h.2, List.length_cons]
    congr 1; omega

theorem scan_free (r : Re) (hr : Brace r) (s : Str) (h : '{' ∉ s) (pos : Nat) : scan r s pos 0 = [] := by
  have := scan_pre r hr s [] h pos
  rw [List.append_nil] at this
  rw [this, scan, hr.1]

theorem scan_drop (r : Re) (a b : Str) (pos : Nat) : scan r (a ++ b) pos a.length = scan r b (pos + a.length) 0 := by
  induction a generalizing pos with
  | nil => rfl
  | cons c a ih =>
    rw [List.cons_append, List.length_cons, scan, ih]
    congr 1; omega

theorem subAux_pre (r : Re) (hr : Brace r) (t pre rest : Str) (h : '{' ∉ pre) : subAux r t (pre ++ rest) 0 = pre ++ subAux r t rest 0 := by
  induction pre with
  | nil => rfl
  | cons c cs ih =>
    simp only [List.mem_cons, not_or] at h
    rw [List.cons_append, subAux, hr.2 c _ (fun e => h.1 e.symm)]
    simp only [ih h.2, List.cons_append]

theorem subAux_free (r : Re) (hr : Brace r) (t s : Str) (h : '{' ∉ s) : subAux r t s 0 = s := by
  have := subAux_pre r hr t s [] h
  rw [List.append_nil] at this
  rw [this, subAux, List.append_nil]

theorem subAux_drop (r : Re) (t a b : Str) : subAux r t (a ++ b) a.length = subAux r t b 0 := by
  induction a with
  | nil => rfl
  | cons c a ih => rw [List.cons_append, List.length_cons, subAux, ih]

/-! ### the placeholder -/

/-- text of a placeholder -/
def slotText (s : Slot) : Str := c!"{{" ++ s.before ++ s.name ++ s.after ++ c!"}}"

theorem word_not_space (c : Char) (h : isWord c = true) : isSpace c = false ∧ c ≠ '}' ∧ c ≠ '{' := by
  have hu : '_'.toNat = 95 := rfl
  have h1 : '}'.toNat = 125 := rfl
  have h2 : '{'.toNat = 123 := rfl
  have hn : (48 ≤ c.toNat ∧ c.toNat ≤ 57) ∨ (65 ≤ c.toNat ∧ c.toNat ≤ 90) ∨ c.toNat = 95 ∨ (97 ≤ c.toNat ∧ c.toNat ≤ 122) := by
    simp only [isWord, isAlnum, isAlpha, isDigit, Bool.or_eq_true, Bool.and_eq_true, decide_eq_true_eq, beq_iff_eq] at h
    rcases h with ((h | h) | h) | rfl
    · omega
    · omega
    · omega
    · simp [hu]
  refine ⟨?_, ?_, ?_⟩
  · simp only [isSpace, Bool.or_eq_false_iff, Bool.and_eq_false_iff, decide_eq_false_iff_not, beq_eq_false_iff_ne]
    omega
  · rintro rfl; omega
  · rintro rfl; omega

/-- first part of a string that is cut in two ways at the first character with another property -/
theorem cut_unique (p : Char → Bool) (a a' b b' : Str) (ha : ∀ c ∈ a, p c = true) (ha' : ∀ c ∈ a', p c = true)
    (hb : ∀ c ∈ b.head?, p c = false) (hb' : ∀ c ∈ b'.head?, p c = false) (e : a ++ b = a' ++ b') : a = a' ∧ b = b' := by
  induction a generalizing a' with
  | nil =>
    cases a' with
    | nil => exact ⟨rfl, e⟩
    | cons x a' =>
      simp only [List.nil_append, List.cons_append] at e
      subst e
      have h1 := hb x (by simp)
      rw [ha' x (by simp)] at h1; cases h1
  | cons x a ih =>
    cases a' with
    | nil =>
      simp only [List.nil_append, List.cons_append] at e
      subst e
      have h1 := hb' x (by simp)
      rw [ha x (by simp)] at h1; cases h1
    | cons y a' =>
      simp only [List.cons_append, List.cons.injEq] at e
      obtain ⟨rfl, e⟩ := e
      obtain ⟨rfl, rfl⟩ := ih a' (fun c hc => ha c (by simp [hc])) (fun c hc => ha' c (by simp [hc])) e
      exact ⟨rfl, rfl⟩

theorem space_not_brace (c : Char) (h : isSpace c = true) : c ≠ '}' := by
  rintro rfl; revert h; decide

theorem count_brace (s : Str) (h : '}' ∉ s) : s.count '}' = 0 := List.count_eq_zero.2 h

/-- what `{{\s*(\S+)\s*}}` finds at a placeholder -/
theorem dynRe_slot (s : Slot) (h : s.OK) (x : Re.Hit) :
    x ∈ run dynRe (slotText s ++ s.post) ↔ x = (slotText s, s.post, [(c!"m", s.name)]) := by
  obtain ⟨hb, hn0, hn, ha, hp1, hp2, hp3⟩ := h
  have hnb : '}' ∉ s.name := fun hc => (word_not_space _ (hn _ hc)).2.1 rfl
  have hab : '}' ∉ s.after := fun hc => space_not_brace _ (ha _ hc) rfl
  unfold dynRe
  constructor
  · intro hx
    obtain ⟨x1, m1, y1, m2, rfl⟩ := (mem_seq _ _ _ _).1 hx
    obtain ⟨x2, m3, y2, m4, rfl⟩ := (mem_seq _ _ _ _).1 m2
    obtain ⟨x3, m5, y3, m6, rfl⟩ := (mem_seq _ _ _ _).1 m4
    obtain ⟨x4, m7, x5, m8, rfl⟩ := (mem_seq _ _ _ _).1 m6
    obtain ⟨x6, m9, rfl⟩ := (mem_cap _ _ _ _).1 m5
    obtain ⟨a1, a2, a3⟩ := (mem_lits _ _ _).1 m1
    obtain ⟨b1, b2, b3⟩ := (mem_star_cls _ _ _ _).1 m3
    obtain ⟨c0, c1, c2, c3⟩ := (mem_plus_cls _ _ _ _).1 m9
    obtain ⟨d1, d2, d3⟩ := (mem_star_cls _ _ _ _).1 m7
    obtain ⟨e1, e2, e3⟩ := (mem_lits _ _ _).1 m8
    obtain ⟨x1t, x1r, x1c⟩ := x1
    obtain ⟨x2t, x2r, x2c⟩ := x2
    obtain ⟨x4t, x4r, x4c⟩ := x4
    obtain ⟨x5t, x5r, x5c⟩ := x5
    obtain ⟨x6t, x6r, x6c⟩ := x6
    simp only at *
    subst a1 a3 b3 c3 d3 e1 e3
    have f1 : x1r = s.before ++ (s.name ++ (s.after ++ (c!"}}" ++ s.post))) := by
      have := a2
      simp only [slotText, List.append_assoc] at this
      exact List.append_cancel_left this
    subst f1
    have hsp : ∀ c, CC.test .space c = isSpace c := fun _ => rfl
    have hns : ∀ c, CC.test .nspace c = !isSpace c := fun _ => rfl
    obtain ⟨g1, g2⟩ := cut_unique isSpace x2t s.before x2r _ (fun c hc => by rw [← hsp]; exact b1 c hc) hb
      (by
        intro c hc
        rw [← c2] at hc
        cases x6t with
        | nil => exact absurd rfl c0
        | cons q x6t =>
          simp at hc; subst hc
          have := c1 q (by simp)
          rw [hns] at this; simpa using this)
      (by
        intro c hc
        cases hq : s.name with
        | nil => exact absurd hq hn0
        | cons q qs =>
          rw [hq] at hc
          simp at hc; subst hc
          exact (word_not_space q (hn q (by rw [hq]; simp))).1) b2
    subst g1 g2
    -- the closing braces
    have hall : x6t ++ (x4t ++ (c!"}}" ++ x5r)) = s.name ++ (s.after ++ (c!"}}" ++ s.post)) := by rw [e2, d2, c2]
    have hcnt := congrArg (List.count '}') hall
    simp only [List.count_append, count_brace _ hnb, count_brace _ hab, count_brace _ hp2] at hcnt
    have h2 : List.count '}' c!"}}" = 2 := by decide
    rw [h2] at hcnt
    have k1 : '}' ∉ x6t := List.count_eq_zero.1 (by omega)
    have k2 : '}' ∉ x4t := List.count_eq_zero.1 (by omega)
    obtain ⟨g3, g4⟩ := cut_unique (fun c => c != '}') (x6t ++ x4t) (s.name ++ s.after) (c!"}}" ++ x5r) (c!"}}" ++ s.post)
      (by
        intro c hc
        simp only [bne_iff_ne]
        rintro rfl
        rcases List.mem_append.1 hc with hc | hc
        · exact k1 hc
        · exact k2 hc)
      (by
        intro c hc
        simp only [bne_iff_ne]
        rintro rfl
        rcases List.mem_append.1 hc with hc | hc
        · exact hnb hc
        · exact hab hc)
      (by intro c hc; simp at hc; subst hc; rfl)
      (by intro c hc; simp at hc; subst hc; rfl)
      (by simp only [List.append_assoc]; exact hall)
    have g4' := List.append_cancel_left g4
    obtain ⟨g5, g6⟩ := cut_unique (fun c => !isSpace c) x6t s.name x4t s.after
      (fun c hc => by have := c1 c hc; rwa [hns] at this)
      (fun c hc => by rw [(word_not_space c (hn c hc)).1]; rfl)
      (by intro c hc; have := d1 c (List.mem_of_head? hc); rw [hsp] at this; simp [this])
      (by intro c hc; simp [ha c (List.mem_of_head? hc)]) g3
    subst g4' g5 g6
    simp [slotText, List.append_assoc]
  · rintro rfl
    refine (mem_seq _ _ _ _).2 ⟨(c!"{{", s.before ++ (s.name ++ (s.after ++ (c!"}}" ++ s.post))), []), ?_, (s.before ++ (s.name ++ (s.after ++ c!"}}")),
      s.post, [(c!"m", s.name)]), ?_, ?_⟩
    · exact (mem_lits _ _ _).2 ⟨rfl, by simp [slotText, List.append_assoc], rfl⟩
    · refine (mem_seq _ _ _ _).2 ⟨(s.before, s.name ++ (s.after ++ (c!"}}" ++ s.post)), []), ?_, (s.name ++ (s.after ++ c!"}}"), s.post, [(c!"m", s.name)]), ?_, ?_⟩
      · exact (mem_star_cls _ _ _ _).2 ⟨hb, rfl, rfl⟩
      · refine (mem_seq _ _ _ _).2 ⟨(s.name, s.after ++ (c!"}}" ++ s.post), [(c!"m", s.name)]), ?_, (s.after ++ c!"}}", s.post, []), ?_, ?_⟩
        · refine (mem_cap _ _ _ _).2 ⟨(s.name, s.after ++ (c!"}}" ++ s.post), []), ?_, rfl⟩
          exact (mem_plus_cls _ _ _ _).2 ⟨hn0, fun c hc => by
            show (!isSpace c) = true
            rw [(word_not_space c (hn c hc)).1]; rfl, rfl, rfl⟩
        · refine (mem_seq _ _ _ _).2 ⟨(s.after, c!"}}" ++ s.post, []), ?_, (c!"}}", s.post, []), ?_, rfl⟩
          · exact (mem_star_cls _ _ _ _).2 ⟨ha, rfl, rfl⟩
          · exact (mem_lits _ _ _).2 ⟨rfl, rfl, rfl⟩
        · rfl
      · simp
    · simp [slotText, List.append_assoc]

/-- what the expression for the name finds there -/
theorem dynReFor_slot (s : Slot) (h : s.OK) (x : Re.Hit) :
    x ∈ run (dynReFor s.name) (slotText s ++ s.post) ↔ x = (slotText s, s.post, []) := by
  obtain ⟨hb, hn0, hn, ha, hp1, hp2, hp3⟩ := h
  unfold dynReFor
  constructor
  · intro hx
    obtain ⟨x1, m1, y1, m2, rfl⟩ := (mem_seq _ _ _ _).1 hx
    obtain ⟨x2, m3, y2, m4, rfl⟩ := (mem_seq _ _ _ _).1 m2
    obtain ⟨x6, m9, y3, m6, rfl⟩ := (mem_seq _ _ _ _).1 m4
    obtain ⟨x4, m7, x5, m8, rfl⟩ := (mem_seq _ _ _ _).1 m6
    obtain ⟨a1, a2, a3⟩ := (mem_lits _ _ _).1 m1
    obtain ⟨b1, b2, b3⟩ := (mem_star_cls _ _ _ _).1 m3
    obtain ⟨c1, c2, c3⟩ := (mem_lits _ _ _).1 m9
    obtain ⟨d1, d2, d3⟩ := (mem_star_cls _ _ _ _).1 m7
    obtain ⟨e1, e2, e3⟩ := (mem_lits _ _ _).1 m8
    obtain ⟨x1t, x1r, x1c⟩ := x1
    obtain ⟨x2t, x2r, x2c⟩ := x2
    obtain ⟨x4t, x4r, x4c⟩ := x4
    obtain ⟨x5t, x5r, x5c⟩ := x5
    obtain ⟨x6t, x6r, x6c⟩ := x6
    simp only at *
    subst a1 a3 b3 c3 d3 e1 e3 c1
    have f1 : x1r = s.before ++ (s.name ++ (s.after ++ (c!"}}" ++ s.post))) := by
      have := a2
      simp only [slotText, List.append_assoc] at this
      exact List.append_cancel_left this
    subst f1
    have hsp : ∀ c, CC.test .space c = isSpace c := fun _ => rfl
    have hhead : ∀ q : Str, ∀ c ∈ (s.name ++ q).head?, isSpace c = false := by
      intro r c hc
      cases hq : s.name with
      | nil => exact absurd hq hn0
      | cons q qs =>
        rw [hq] at hc
        simp at hc; subst hc
        exact (word_not_space q (hn q (by rw [hq]; simp))).1
    obtain ⟨g1, g2⟩ := cut_unique isSpace x2t s.before x2r _ (fun c hc => by rw [← hsp]; exact b1 c hc) hb
      (by rw [← c2]; exact hhead _) (hhead _) b2
    subst g1 g2
    have g3 := List.append_cancel_left c2
    subst g3
    obtain ⟨g5, g6⟩ := cut_unique isSpace x4t s.after x4r _ (fun c hc => by rw [← hsp]; exact d1 c hc) ha
      (by rw [← e2]; intro c hc; simp at hc; subst hc; decide)
      (by intro c hc; simp at hc; subst hc; decide) d2
    subst g5 g6
    have g7 := List.append_cancel_left e2
    subst g7
    simp [slotText, List.append_assoc]
  · rintro rfl
    refine (mem_seq _ _ _ _).2 ⟨(c!"{{", s.before ++ (s.name ++ (s.after ++ (c!"}}" ++ s.post))), []), ?_, (s.before ++ (s.name ++ (s.after ++ c!"}}")),
      s.post, []), ?_, ?_⟩
    · exact (mem_lits _ _ _).2 ⟨rfl, by simp [slotText, List.append_assoc], rfl⟩
    · refine (mem_seq _ _ _ _).2 ⟨(s.before, s.name ++ (s.after ++ (c!"}}" ++ s.post)), []), ?_, (s.name ++ (s.after ++ c!"}}"), s.post, []), ?_, rfl⟩
      · exact (mem_star_cls _ _ _ _).2 ⟨hb, rfl, rfl⟩
      · refine (mem_seq _ _ _ _).2 ⟨(s.name, s.after ++ (c!"}}" ++ s.post), []), ?_, (s.after ++ c!"}}", s.post, []), ?_, rfl⟩
        · exact (mem_lits _ _ _).2 ⟨rfl, rfl, rfl⟩
        · refine (mem_seq _ _ _ _).2 ⟨(s.after, c!"}}" ++ s.post, []), ?_, (c!"}}", s.post, []), ?_, rfl⟩
          · exact (mem_star_cls _ _ _ _).2 ⟨ha, rfl, rfl⟩
          · exact (mem_lits _ _ _).2 ⟨rfl, rfl, rfl⟩
    · simp [slotText, List.append_assoc]

/-- a list that has exactly one item in it starts with it -/
theorem head_of_only {α : Type} (l : List α) (a : α) (h : ∀ x, x ∈ l ↔ x = a) : ∃ t, l = a :: t := by
  cases l with
  | nil => exact absurd ((h a).2 rfl) (by simp)
  | cons b t => exact ⟨t, by rw [(h b).1 (by simp)]⟩

theorem slotText_cons (s : Slot) : ∃ t, slotText s = '{' :: t := ⟨_, rfl⟩

/-- the names found in an item with one placeholder -/
theorem dynNames_slot (pre : Str) (hpre : '{' ∉ pre) (s : Slot) (h : s.OK) : dynNames (pre ++ slotText s ++ s.post) = [s.name] := by
  obtain ⟨t, ht⟩ := head_of_only _ _ (dynRe_slot s h)
  obtain ⟨u, hu⟩ := slotText_cons s
  unfold dynNames Re.finditer
  rw [List.append_assoc, scan_pre _ brace_dynRe _ _ hpre]
  have e : slotText s ++ s.post = '{' :: (u ++ s.post) := by rw [hu]; rfl
  have hlen : (slotText s).length - 1 = u.length := by rw [hu]; rfl
  rw [e, scan]
  rw [e] at ht
  rw [ht]
  simp only [hlen]
  rw [scan_drop, scan_free _ brace_dynRe _ h.2.2.2.2.1]
  rfl

/-- the placeholder is replaced -/
theorem sub_slot (pre : Str) (hpre : '{' ∉ pre) (s : Slot) (h : s.OK) (t : Str) :
    Re.sub (dynReFor s.name) t (pre ++ slotText s ++ s.post) = pre ++ t ++ s.post := by
  obtain ⟨l, hl⟩ := head_of_only _ _ (dynReFor_slot s h)
  obtain ⟨u, hu⟩ := slotText_cons s
  unfold Re.sub
  rw [List.append_assoc, subAux_pre _ (brace_dynReFor _) _ _ _ hpre]
  have e : slotText s ++ s.post = '{' :: (u ++ s.post) := by rw [hu]; rfl
  have hlen : (slotText s).length - 1 = u.length := by rw [hu]; rfl
  have hne : (slotText s).isEmpty = false := by rw [hu]; rfl
  rw [e, subAux]
  rw [e] at hl
  rw [hl]
  simp only [hlen, hne, Bool.false_eq_true, if_false]
  rw [subAux_drop, subAux_free _ (brace_dynReFor _) _ _ h.2.2.2.2.1, List.append_assoc]

theorem reTemplate_id (s : Str) (h : NoBackslash s) : reTemplate s = some s := by
  induction s with
  | nil => rfl
  | cons c cs ih =>
    unfold NoBackslash at h
    simp only [List.mem_cons, not_or] at h
    rw [reTemplate.eq_def]
    split
    · rename_i e; cases e
    · rename_i e; cases e; exact absurd rfl h.1
    · rename_i e; cases e; exact absurd rfl h.1
    · rename_i c' cs' _ _ e
      cases e
      rw [ih h.2]; rfl

/-! ### forming the path -/

theorem splitStars_base (base : Str) (n : Nat) (h : base.getLast? ≠ some '*') : splitStars (base ++ List.replicate n '*') = (base, n) := by
  have e : rstripP (· == '*') (base ++ List.replicate n '*') = base := by
    unfold rstripP
    rw [List.reverse_append, List.reverse_replicate]
    have : ∀ (n : Nat) (l : Str), l.head? ≠ some '*' → (List.replicate n '*' ++ l).dropWhile (· == '*') = l := by
      intro n l hl
      induction n with
      | zero =>
        cases l with
        | nil => rfl
        | cons c l =>
          have : (c == '*') = false := by simp at hl; simpa using hl
          simp [this]
      | succ n ih => simpa [List.replicate_succ] using ih
    rw [this _ _ (by rw [List.head?_reverse]; exact h), List.reverse_reverse]
  unfold splitStars
  rw [e]
  simp

theorem erase_absent (d : Dict Key Val) (k : Key) (h : Dict.get? d k = none) : Dict.erase d k = d := by
  induction d with
  | nil => rfl
  | cons q d ih =>
    obtain ⟨k', v'⟩ := q
    rw [Dict.get?_cons] at h
    by_cases e : k' = k
    · simp [e] at h
    · rw [if_neg e] at h
      rw [Dict.erase, if_neg e, ih h]

theorem get?_erase_of {d : Dict Key Val} {k q : Key} {v : Val} (h : Dict.get? (Dict.erase d k) q = some v) (hq : q ≠ k) :
    Dict.get? d q = some v := by
  induction d with
  | nil => simp [Dict.erase] at h
  | cons x d ih =>
    obtain ⟨k', v'⟩ := x
    rw [Dict.erase] at h
    rw [Dict.get?_cons]
    split at h
    · rename_i e
      rw [if_neg (by rw [e]; exact fun e => hq e.symm)]; exact h
    · rw [Dict.get?_cons] at h
      split at h
      · rename_i e; rw [if_pos e]; exact h
      · rename_i e; rw [if_neg e]; exact ih h

theorem substVar_slot (vars used : Dict Str Val) (r : Dict Key Val) (pre : Str) (hpre : '{' ∉ pre) (s : Slot) (h : s.OK)
    (ht : TameIn vars used r [s.name]) :
    substVar vars s.name used (.dict r) (pre ++ slotText s ++ s.post) =
      match slotValue vars used r s.name with
      | none => .ok (used, .dict r, none)
      | some v => .ok (remember used r s.name, .dict (Dict.erase r (.s s.name)),
          some (pre ++ pyStr v ++ s.post)) := by
  obtain ⟨t1, t2, t3⟩ := ht s.name (by simp)
  unfold substVar popVar slotValue remember
  cases hr : Dict.get? r (.s s.name) with
  | some v =>
    obtain ⟨x, rfl, hx⟩ := t1 v hr
    simp only [hr, pure_ok, ok_bind, Option.some_or, pyStr, reTemplate_id x hx, sub_slot pre hpre s h]
  | none =>
    simp only [hr, pure_ok, ok_bind, Option.none_or, erase_absent r _ hr]
    cases hu : Dict.get? used s.name with
    | some v =>
      obtain ⟨x, rfl, hx⟩ := t2 v hu
      simp only [Option.some_or, pyStr, reTemplate_id x hx, sub_slot pre hpre s h]
    | none =>
      simp only [Option.none_or]
      cases hv : Dict.get? vars s.name with
      | some v => simp only [reTemplate_id _ (t3 v hv), sub_slot pre hpre s h]
      | none => simp only

theorem source_slot (i : DItem) (s : Slot) (hs : i.slot = some s) : i.source = (i.pre ++ slotText s ++ s.post) ++ List.replicate i.stars '*' := by
  unfold DItem.source slotText
  rw [hs]
  simp only [List.append_assoc]

/-- the values remembered and the rest of the record stay tame -/
theorem tame_next {vars used : Dict Str Val} {r : Dict Key Val} {n : Str} {names : List Str} (hwf : Dict.WF r)
    (h : TameIn vars used r (n :: names)) :
    TameIn vars (remember used r n) (Dict.erase r (.s n)) names := by
  intro m hm
  obtain ⟨a, b, c⟩ := h m (by simp [hm])
  refine ⟨?_, ?_, c⟩
  · intro v hv
    by_cases e : m = n
    · subst e
      rw [Dict.get?_erase r _ hwf, if_pos rfl] at hv; cases hv
    · exact a v (get?_erase_of hv (by simpa using e))
  · intro v hv
    unfold remember at hv
    cases hr : Dict.get? r (.s n) with
    | none => rw [hr] at hv; exact b v hv
    | some w =>
      rw [hr] at hv
      dsimp only at hv
      rw [Dict.get?_set] at hv
      split at hv
      · cases hv
        exact (h n (by simp)).1 v hr
      · exact b v hv

theorem formPath_fill (vars : Dict Str Val) (items : List DItem) (hi : ∀ i ∈ items, i.OK) (used : Dict Str Val) (r : Dict Key Val)
    (hwf : Dict.WF r) (ht : TameIn vars used r (slotNames items)) :
    formPath vars (items.map DItem.source) used (.dict r) =
      .ok ((fillPath vars items used r).1, .dict (fillPath vars items used r).2.1, (fillPath vars items used r).2.2) := by
  induction items generalizing used r with
  | nil => rfl
  | cons i items ih =>
    have hok := hi i (by simp)
    have his := fun x hx => hi x (List.mem_cons_of_mem _ hx)
    rw [List.map_cons, formPath, fillPath]
    cases hs : i.slot with
    | none =>
      unfold DItem.OK at hok
      rw [hs] at hok
      obtain ⟨h1, h2⟩ := hok
      have e : i.source = i.pre ++ List.replicate i.stars '*' := by unfold DItem.source; rw [hs]; simp
      have hn : slotNames (i :: items) = slotNames items := by unfold slotNames; simp [hs]
      rw [hn] at ht
      rw [e, splitStars_base _ _ h2]
      simp only [dynNames_static _ h1, substVars, pure_ok, ok_bind, ih his used r hwf ht]
    | some s =>
      unfold DItem.OK at hok
      rw [hs] at hok
      obtain ⟨h1, h2⟩ := hok
      have hn : slotNames (i :: items) = s.name :: slotNames items := by unfold slotNames; simp [hs]
      rw [hn] at ht
      have hlast : (i.pre ++ slotText s ++ s.post).getLast? ≠ some '*' := by
        have h3 := h2.2.2.2.2.2.2
        rw [List.getLast?_append]
        cases hp : s.post.getLast? with
        | some c => rw [hp] at h3; simpa using h3
        | none =>
          have e : i.pre ++ slotText s = (i.pre ++ (c!"{{" ++ s.before ++ s.name ++ s.after ++ c!"}")) ++ ['}'] := by
            simp [slotText]
          rw [Option.none_or, e, List.getLast?_concat]
          decide
      rw [source_slot i s hs, splitStars_base _ _ hlast]
      simp only [dynNames_slot i.pre h1 s h2, substVars]
      rw [substVar_slot vars used r i.pre h1 s h2 (fun n hn => ht n (by simp at hn; simp [hn]))]
      cases hv : slotValue vars used r s.name with
      | none => simp only [ok_bind, pure_ok]
      | some v =>
        simp only [ok_bind, pure_ok]
        rw [ih his _ _ (Dict.WF_erase _ _ hwf) (tame_next hwf ht)]
        simp only [ok_bind]

/-! ### the machine -/

theorem fillPath_used (vars : Dict Str Val) (items : List DItem) (used : Dict Str Val) (r : Dict Key Val) (hwf : Dict.WF r)
    (names : List Str) (h : ∀ n ∈ slotNames items, n ∈ names) (ht : TameIn vars used r names) (n : Str) (hn : n ∈ names) (v : Val)
    (hv : Dict.get? (fillPath vars items used r).1 n = some v) : Plain v := by
  induction items generalizing used r with
  | nil => exact (ht n hn).2.1 v hv
  | cons i items ih =>
    rw [fillPath] at hv
    cases hs : i.slot with
    | none =>
      simp only [hs] at hv
      exact ih used r hwf (fun m hm => h m (by unfold slotNames at hm ⊢; simpa [hs] using hm)) ht hv
    | some s =>
      have hn' : slotNames (i :: items) = s.name :: slotNames items := by unfold slotNames; simp [hs]
      rw [hn'] at h
      simp only [hs] at hv
      cases hsv : slotValue vars used r s.name with
      | none => simp only [hsv] at hv; exact (ht n hn).2.1 v hv
      | some w =>
        simp only [hsv] at hv
        refine ih _ _ (Dict.WF_erase _ _ hwf) (fun m hm => h m (by simp [hm])) ?_ hv
        exact tame_next hwf (n := s.name) (names := names) (by
          intro m hm
          rcases List.mem_cons.1 hm with rfl | hm
          · exact ht _ (h _ (by simp))
          · exact ht m hm)

theorem fillPath_length (vars : Dict Str Val) (items : List DItem) (used : Dict Str Val) (r : Dict Key Val) (p : List PItem)
    (h : (fillPath vars items used r).2.2 = some p) : p.length = items.length := by
  induction items generalizing used r p with
  | nil => simp only [fillPath, Option.some.injEq] at h; rw [← h]; rfl
  | cons i items ih =>
    rw [fillPath] at h
    cases hs : i.slot with
    | none =>
      simp only [hs, Option.map_eq_some_iff] at h
      obtain ⟨q, h1, h2⟩ := h
      rw [← h2, List.length_cons, List.length_cons, ih _ _ _ h1]
    | some s =>
      simp only [hs] at h
      cases hsv : slotValue vars used r s.name with
      | none => simp [hsv] at h
      | some v =>
        simp only [hsv, Option.map_eq_some_iff] at h
        obtain ⟨q, h1, h2⟩ := h
        rw [← h2, List.length_cons, List.length_cons, ih _ _ _ h1]

theorem flush_dyn (ti : Bool) (gf : GroupFns) (ms : MS) (items : List DItem) (hi : ∀ i ∈ items, i.OK) (hne : items ≠ [])
    (hf : ms.record.functions = []) (hm : ms.record.merge = false) (hp : ms.record.path = items.map DItem.source)
    (hwf : Dict.WF (addDefaults ms.record.result ms.record.defaults))
    (ht : TameIn ms.vars ms.dynCache (addDefaults ms.record.result ms.record.defaults) (slotNames items)) :
    flush ti gf ms = match fillPath ms.vars items ms.dynCache (addDefaults ms.record.result ms.record.defaults) with
      | (used', r', some p) => save ti false (.dict r') p ms.results >>= fun R => pure { ms with dynCache := used', results := R }
      | (used', _, none) => pure { ms with dynCache := used' } := by
  unfold flush processgrp preMerge postPath
  simp only [hm, Bool.false_eq_true, if_false, pure_ok, ok_bind, hf, runFns, hp]
  rw [formPath_fill ms.vars items hi ms.dynCache _ hwf ht]
  have hl := fillPath_length ms.vars items ms.dynCache (addDefaults ms.record.result ms.record.defaults)
  rcases hfp : fillPath ms.vars items ms.dynCache (addDefaults ms.record.result ms.record.defaults) with ⟨u, r', o⟩
  rw [hfp] at hl
  cases o with
  | none => rfl
  | some p =>
    have := hl p rfl
    cases p with
    | nil =>
      cases items with
      | nil => exact absurd rfl hne
      | cons i is => simp at this
    | cons q qs =>
      simp only [ok_bind, hm]

theorem dyn_sim (ti : Bool) (gf : GroupFns) (g : GId) (items : List DItem) (hi : ∀ i ∈ items, i.OK) (hne : items ≠ [])
    (dflt : Dict Key Val) (hits : List Hit) (hof : ∀ h ∈ hits, OfGroup g (items.map DItem.source) dflt h)
    (ms : MS) (cur : Option (Dict Key Val)) (dead : Bool) (hinv : FlatInv g (items.map DItem.source) dflt ms cur dead)
    (hwf : ∀ r ∈ recsOf dflt cur dead (hits.map evOf), Dict.WF r)
    (ht : ∀ r ∈ recsOf dflt cur dead (hits.map evOf), TameIn ms.vars ms.dynCache r (slotNames items)) :
    ((steps ti gf ms (hits.map ([·])) >>= flush ti gf).map (·.results)) =
      saveEach ti ms.vars items (recsOf dflt cur dead (hits.map evOf)) ms.dynCache ms.results := by
  have hpne : items.map DItem.source ≠ [] := by simpa using hne
  induction hits generalizing ms cur dead with
  | nil =>
    simp only [List.map_nil, steps, pure_ok, ok_bind, recsOf] at *
    cases cur with
    | none =>
      have hr : ms.record = Record.empty := hinv.record
      rw [flush_empty ti gf ms hr]
      rfl
    | some r =>
      have hr : ms.record = ⟨r, items.map DItem.source, [], dflt, some g, false⟩ := hinv.record
      rw [flush_dyn ti gf ms items hi hne (by rw [hr]) (by rw [hr]) (by rw [hr]) (by rw [hr]; exact hwf _ (by simp))
        (by rw [hr]; exact ht _ (by simp))]
      simp only [hr, Option.toList_some, List.map_cons, List.map_nil, saveEach]
      rcases fillPath ms.vars items ms.dynCache (addDefaults r dflt) with ⟨u, r', o⟩
      cases o with
      | none => rfl
      | some p =>
        simp only
        cases save ti false (.dict r') p ms.results with
        | error e => rfl
        | ok R => rfl
  | cons h hits ih =>
    have hg := hof h (by simp)
    have ihs := fun ms cur dead hinv => ih (fun x hx => hof x (by simp [hx])) ms cur dead hinv
    simp only [List.map_cons, steps, step_single]
    simp only [List.map_cons] at hwf ht
    have hpar : ∀ m : MS, parentEnded m h.1 = false := by intro m; simp [parentEnded, hg.parent]
    have startCase : ∀ (d : Dict Key Val) (ms1 : MS), ms1.record = ms.record → ms1.results = ms.results → ms1.vars = ms.vars →
        ms1.dynCache = ms.dynCache → g ∉ ms1.ended →
        (∀ r ∈ cur.toList.map (fun r => addDefaults r dflt) ++ recsOf dflt (some d) false (hits.map evOf), Dict.WF r) →
        (∀ r ∈ cur.toList.map (fun r => addDefaults r dflt) ++ recsOf dflt (some d) false (hits.map evOf),
          TameIn ms.vars ms.dynCache r (slotNames items)) →
        ((doStart ti gf h.1 d ms1 >>= fun ms' => steps ti gf ms' (hits.map ([·]))) >>= flush ti gf).map (·.results) =
        saveEach ti ms.vars items (cur.toList.map (fun r => addDefaults r dflt) ++ recsOf dflt (some d) false (hits.map evOf)) ms.dynCache ms.results := by
      intro d ms1 hr1 hr2 hr4 hr5 hr3 hwf ht
      unfold doStart
      cases cur with
      | none =>
        have hr : ms.record = Record.empty := hinv.record
        rw [flush_empty ti gf _ (by show ms1.record = _; rw [hr1, hr])]
        simp only [ok_bind, pure_ok, Option.toList_none, List.map_nil, List.nil_append] at *
        refine (ihs _ (some d) false ⟨(by simp [hg.path, hg.funcs, hg.runs, hg.gid]), (by intro e; cases e), (by simp [hr3])⟩ hwf
          (by simpa only [hr4, hr5] using ht)).trans ?_
        simp only [hr2, hr4, hr5]
      | some r =>
        have hr : ms.record = ⟨r, items.map DItem.source, [], dflt, some g, false⟩ := hinv.record
        have hr' : ms1.record = ⟨r, items.map DItem.source, [], dflt, some g, false⟩ := by rw [hr1, hr]
        have hw0 : Dict.WF (addDefaults r dflt) := hwf _ (by simp)
        have ht0 : TameIn ms.vars ms.dynCache (addDefaults r dflt) (slotNames items) := ht _ (by simp)
        rw [flush_dyn ti gf { ms1 with started := trace h.1 ms1.started } items hi hne (by simp [hr']) (by simp [hr']) (by simp [hr'])
          (by simpa [hr'] using hw0) (by simpa only [hr', hr4, hr5] using ht0)]
        simp only [hr', hr2, hr4, hr5, Option.toList_some, List.map_cons, List.map_nil, List.cons_append, List.nil_append, saveEach]
        have hu := fillPath_used ms.vars items ms.dynCache (addDefaults r dflt) hw0 (slotNames items) (fun n hn => hn) ht0
        rcases hfp : fillPath ms.vars items ms.dynCache (addDefaults r dflt) with ⟨u, r', o⟩
        rw [hfp] at hu
        have ht' : ∀ x ∈ recsOf dflt (some d) false (hits.map evOf), TameIn ms.vars u x (slotNames items) := by
          intro x hx n hn
          obtain ⟨a, _, c⟩ := ht x (by simp [hx]) n hn
          exact ⟨a, hu n hn, c⟩
        have hw' : ∀ x ∈ recsOf dflt (some d) false (hits.map evOf), Dict.WF x := fun x hx => hwf x (by simp [hx])
        cases o with
        | none =>
          simp only [ok_bind, pure_ok]
          refine (ihs _ (some d) false ⟨(by simp [hg.path, hg.funcs, hg.runs, hg.gid]), (by intro e; cases e), (by simp [hr3])⟩ hw'
            (by simpa only [hr4] using ht')).trans ?_
          simp only [hr2, hr4]
        | some p =>
          simp only
          cases save ti false (.dict r') p ms.results with
          | error e => rfl
          | ok R =>
            simp only [ok_bind, pure_ok]
            refine (ihs _ (some d) false ⟨(by simp [hg.path, hg.funcs, hg.runs, hg.gid]), (by intro e; cases e), (by simp [hr3])⟩ hw'
              (by simpa only [hr4] using ht')).trans ?_
            simp only [hr4]
    cases hd : h.2 with
    | none =>
      have e1 : evOf h = .badStart := by simp [evOf, hd]
      have e2 : applyHit ti gf ms h = .ok { ms with ended := addEnded ms.ended h.1.gid } := by
        simp [applyHit, hd]
      rw [e1] at hwf ht ⊢
      rw [e2]
      simp only [ok_bind, recsOf] at *
      exact ihs { ms with ended := addEnded ms.ended h.1.gid } cur true ⟨hinv.record, hinv.started, by simp [hg.gid, mem_addEnded]⟩ hwf ht
    | some d =>
      by_cases hst : h.1.action.isStart = true
      · obtain ⟨d', hev, hact⟩ : ∃ d', evOf h = .start d' ∧ ∀ m : MS, doAction ti gf h.1 d m = doStart ti gf h.1 d' m := by
          cases ha : h.1.action with
          | start => exact ⟨d, by simp [evOf, hd, ha], fun m => by simp [doAction, ha]⟩
          | startempty => exact ⟨[], by simp [evOf, hd, ha], fun m => by simp [doAction, ha]⟩
          | _ => simp [ha, Action.isStart] at hst
        rw [hev] at hwf ht ⊢
        simp only [recsOf] at hwf ht ⊢
        by_cases hended : g ∈ ms.ended
        · have e2 : applyHit ti gf ms h = doStart ti gf h.1 d' { ms with ended := ms.ended.filter (fun x => x != h.1.gid) } := by
            simp [applyHit, hd, hpar, hg.gid, hended, hst, hact]
          rw [e2]
          exact startCase d' _ rfl rfl rfl rfl (by simp [hg.gid]) hwf ht
        · have e2 : applyHit ti gf ms h = doStart ti gf h.1 d' ms := by
            simp [applyHit, hd, hpar, hg.gid, hended, hact]
          rw [e2]
          exact startCase d' _ rfl rfl rfl rfl hended hwf ht
      · have hadd : h.1.action = .add := by
          rcases hg.action with h1 | h1
          · exact absurd h1 hst
          · exact h1.1
        have hev : evOf h = .line d := by simp [evOf, hd, hadd]
        rw [hev] at hwf ht ⊢
        by_cases hended : g ∈ ms.ended
        · have hdead := hinv.ended.1 hended
          subst hdead
          have e2 : applyHit ti gf ms h = .ok ms := by
            simp [applyHit, hd, hpar, hg.gid, hended, hadd, Action.isStart]
          rw [e2]
          simp only [ok_bind, recsOf] at hwf ht ⊢
          exact ihs ms cur true hinv hwf ht
        · have hdead : dead = false := by
            cases dead with
            | false => rfl
            | true => exact absurd (hinv.ended.2 rfl) hended
          subst hdead
          cases cur with
          | none =>
            have hr : ms.record = Record.empty := hinv.record
            have e2 : applyHit ti gf ms h = .ok ms := by
              have hp : ¬ (Record.empty.path = h.1.path) := by rw [hg.path]; exact fun e => hpne e.symm
              simp [applyHit, hd, hpar, hg.gid, hended, hadd, doAction, doAdd, hr, hp, lateStart, hinv.started rfl]
            rw [e2]
            simp only [ok_bind, recsOf] at hwf ht ⊢
            exact ihs ms none false hinv hwf ht
          | some r =>
            have hr : ms.record = ⟨r, items.map DItem.source, [], dflt, some g, false⟩ := hinv.record
            have e2 : applyHit ti gf ms h =
                .ok { ms with record := { ms.record with result := Dict.update d ms.record.result } } := by
              simp [applyHit, hd, hpar, hg.gid, hended, hadd, doAction, doAdd, hr, hg.path]
            rw [e2]
            simp only [ok_bind, recsOf] at hwf ht ⊢
            exact ihs { ms with record := { ms.record with result := Dict.update d ms.record.result } } (some (Dict.update d r)) false
              ⟨(by simp [hr]), (by intro e; cases e), hinv.ended⟩ hwf ht

end TTP
