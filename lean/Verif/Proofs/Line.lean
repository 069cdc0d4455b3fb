import Verif.Model.Line
import Verif.Spec.Line
import Verif.Proofs.Regex
/-! # Facts about the line compiler -/

namespace TTP
open Py Py.Re Spec

theorem isBlank_iff (c : Char) : isBlank c = true ↔ Blank c := by simp [isBlank, Blank]

theorem isBlank_space (c : Char) (h : isBlank c = true) : isSpace c = true := by
  rw [isBlank_iff] at h
  rcases h with rfl | rfl <;> decide

theorem isBlank_not_digit (c : Char) (h : isBlank c = true) : isDigit c = false := by
  rw [isBlank_iff] at h
  rcases h with rfl | rfl <;> decide

theorem isDigit_not_space (c : Char) (h : isDigit c = true) : isSpace c = false := by
  simp only [isDigit, Bool.and_eq_true, decide_eq_true_eq] at h
  have : ∀ n : Nat, 48 ≤ n → n ≤ 57 → ((9 ≤ n && n ≤ 13) || (28 ≤ n && n ≤ 32) || n == 0x85 || n == 0xA0 || n == 0x1680 ||
    (0x2000 ≤ n && n ≤ 0x200A) || n == 0x2028 || n == 0x2029 || n == 0x202F || n == 0x205F || n == 0x3000) = false := by
    intro n h1 h2
    simp only [Bool.or_eq_false_iff, Bool.and_eq_false_iff, beq_eq_false_iff_ne, decide_eq_false_iff_not]
    omega
  exact this _ h.1 h.2

/-- kind of the last character -/
def endKind (exact exactSp : Bool) : Kind → List (Elem VarInfo) → Kind
  | k, [] => k
  | _, .ch c :: rest =>
    if !exactSp && isBlank c then endKind exact exactSp .blank rest
    else if !exact && isDigit c then endKind exact exactSp .digit rest
    else endKind exact exactSp .other rest
  | _, .var _ :: rest => endKind exact exactSp .other rest

theorem mem_seq_assoc (a b c : Re) (s : Str) (h : Re.Hit) :
    h ∈ run (.seq a (.seq b c)) s ↔ h ∈ run (.seq (.seq a b) c) s := by
  simp only [mem_seq]
  constructor
  · rintro ⟨h1, m1, h2, ⟨h3, m3, h4, m4, rfl⟩, rfl⟩
    exact ⟨_, ⟨h1, m1, h3, m3, rfl⟩, h4, m4, by simp⟩
  · rintro ⟨h1, ⟨h2, m2, h3, m3, rfl⟩, h4, m4, rfl⟩
    exact ⟨h2, m2, _, ⟨h3, m3, h4, m4, rfl⟩, by simp⟩

theorem seq_congr_right (a b b' : Re) (hb : ∀ s h, h ∈ run b s ↔ h ∈ run b' s) (s : Str) (h : Re.Hit) :
    h ∈ run (.seq a b) s ↔ h ∈ run (.seq a b') s := by
  simp only [mem_seq, hb]

/-- The expression of a concatenation is the sequence of the expressions. -/
theorem elemsRe_append (ex sp : Bool) (k : Kind) (a b : List (Elem VarInfo)) (s : Str) (h : Re.Hit) :
    h ∈ run (elemsRe ex sp k (a ++ b)) s ↔ h ∈ run (.seq (elemsRe ex sp k a) (elemsRe ex sp (endKind ex sp k a) b)) s := by
  induction a generalizing k s h with
  | nil =>
    simp only [List.nil_append, elemsRe, endKind, mem_seq, mem_eps]
    constructor
    · intro hh; exact ⟨_, rfl, h, hh, rfl⟩
    · rintro ⟨h1, rfl, h2, m2, rfl⟩; exact m2
  | cons e a ih =>
    cases e with
    | var v =>
      simp only [List.cons_append, elemsRe, endKind]
      rw [← mem_seq_assoc]
      exact seq_congr_right _ _ _ (ih .other) s h
    | ch c =>
      simp only [List.cons_append, elemsRe, endKind]
      split
      · split
        · exact ih .blank s h
        · rw [← mem_seq_assoc]; exact seq_congr_right _ _ _ (ih .blank) s h
      · split
        · split
          · exact ih .digit s h
          · rw [← mem_seq_assoc]; exact seq_congr_right _ _ _ (ih .digit) s h
        · rw [← mem_seq_assoc]; exact seq_congr_right _ _ _ (ih .other) s h

/-- literal characters -/
def chs (t : Str) : List (Elem VarInfo) := t.map .ch

theorem elemsRe_blanks (ex : Bool) (b : Str) (hb : ∀ c ∈ b, Blank c) (rest : List (Elem VarInfo)) :
    elemsRe ex false .blank (chs b ++ rest) = elemsRe ex false .blank rest := by
  induction b with
  | nil => rfl
  | cons c b ih =>
    have : isBlank c = true := (isBlank_iff c).2 (hb c (by simp))
    simp only [chs, List.map_cons, List.cons_append, elemsRe, this, Bool.not_false, Bool.and_self, if_true]
    exact ih (fun c hc => hb c (by simp [hc]))

theorem elemsRe_digits (sp : Bool) (b : Str) (hb : ∀ c ∈ b, Digit c) (rest : List (Elem VarInfo)) :
    elemsRe false sp .digit (chs b ++ rest) = elemsRe false sp .digit rest := by
  induction b with
  | nil => rfl
  | cons c b ih =>
    have hd : isDigit c = true := hb c (by simp)
    have : isBlank c = false := by
      cases h : isBlank c with
      | false => rfl
      | true => rw [isBlank_not_digit c h] at hd; cases hd
    simp only [chs, List.map_cons, List.cons_append, elemsRe, this, hd, Bool.and_false, Bool.not_false, Bool.and_self, if_true,
      Bool.false_eq_true, if_false]
    exact ih (fun c hc => hb c (by simp [hc]))

/-- what the list begins with -/
def startsCh (p : Char → Prop) : List (Elem VarInfo) → Prop
  | .ch c :: _ => p c
  | _ => False

theorem elemsRe_kind_blank (ex sp : Bool) (es : List (Elem VarInfo)) (h : ¬ startsCh Blank es) :
    elemsRe ex sp .blank es = elemsRe ex sp .other es := by
  cases es with
  | nil => rfl
  | cons e es =>
    cases e with
    | var v => rfl
    | ch c =>
      have : isBlank c = false := by
        cases hb : isBlank c with
        | false => rfl
        | true => exact absurd ((isBlank_iff c).1 hb) h
      simp [elemsRe, this]

theorem elemsRe_kind_digit (ex sp : Bool) (es : List (Elem VarInfo)) (h : ¬ startsCh Digit es) :
    elemsRe ex sp .digit es = elemsRe ex sp .other es := by
  cases es with
  | nil => rfl
  | cons e es =>
    cases e with
    | var v => rfl
    | ch c =>
      have : isDigit c = false := by
        cases hb : isDigit c with
        | false => rfl
        | true => exact absurd hb h
      simp [elemsRe, this]

theorem takeWhile_imp (p : Char → Bool) (t : Str) (c : Char) (h : c ∈ t.takeWhile p) : p c = true := by
  induction t with
  | nil => cases h
  | cons d t ih =>
    rw [List.takeWhile_cons] at h
    split at h
    · rcases List.mem_cons.1 h with rfl | h
      · assumption
      · exact ih h
    · cases h

/-- maximal run at the beginning -/
theorem split_run (p : Char → Bool) (t : Str) : ∃ b r, t = b ++ r ∧ (∀ c ∈ b, p c = true) ∧
    NotNext (fun c => p c = true) r := by
  refine ⟨t.takeWhile p, t.dropWhile p, List.takeWhile_append_dropWhile.symm, fun c hc => takeWhile_imp p t c hc, ?_⟩
  intro c cs h hp
  have := List.head?_dropWhile_not p t
  rw [h] at this
  simp [hp] at this

theorem mem_blanksRe (s : Str) (h : Re.Hit) :
    h ∈ run blanksRe s ↔ Blanks h.1 ∧ h.1 ++ h.2.1 = s ∧ h.2.2 = [] := by
  unfold blanksRe Blanks
  rw [mem_plus_cls, and_assoc]
  have : ∀ c, CC.test (.oneOf [' ', '\t']) c = true ↔ Blank c := by intro c; simp [CC.test, Blank]
  simp only [this]

theorem mem_digitsRe (s : Str) (h : Re.Hit) :
    h ∈ run (Re.plus true (.cls .digit)) s ↔ Digits h.1 ∧ h.1 ++ h.2.1 = s ∧ h.2.2 = [] := by
  unfold Digits
  rw [mem_plus_cls, and_assoc]
  rfl

/-- same run, two decompositions -/
theorem run_unique (p : Char → Prop) (b b' r r' : Str) (hb : ∀ c ∈ b, p c) (hb' : ∀ c ∈ b', p c)
    (hr : NotNext p r) (hr' : NotNext p r') (e : b ++ r = b' ++ r') : b = b' ∧ r = r' := by
  induction b generalizing b' with
  | nil =>
    cases b' with
    | nil => exact ⟨rfl, e⟩
    | cons c b' =>
      exact absurd (hb' c (by simp)) (hr c (b' ++ r') e)
  | cons c b ih =>
    cases b' with
    | nil => exact absurd (hb c (by simp)) (hr' c (b ++ r) e.symm)
    | cons c' b' =>
      simp only [List.cons_append, List.cons.injEq] at e
      obtain ⟨h1, h2⟩ := ih b' (fun c hc => hb c (by simp [hc])) (fun c hc => hb' c (by simp [hc])) e.2
      exact ⟨by rw [e.1, h1], h2⟩

/-- Literal text: the expression matches exactly what the literal stands for. -/
theorem mem_chs (ex sp : Bool) (t : Str) (s : Str) (h : Re.Hit) :
    h ∈ run (elemsRe ex sp .other (chs t)) s ↔
      LitMatch (sp = false) (ex = false) t h.1 ∧ h.1 ++ h.2.1 = s ∧ h.2.2 = [] := by
  induction hn : t.length using Nat.strongRecOn generalizing t s h with
  | _ n ih =>
    cases t with
    | nil =>
      obtain ⟨a, b, c⟩ := h
      simp only [chs, List.map_nil, elemsRe, mem_eps, Prod.mk.injEq]
      constructor
      · rintro ⟨rfl, rfl, rfl⟩; exact ⟨.nil, rfl, rfl⟩
      · rintro ⟨hl, e1, e2⟩
        have : a = [] := by
          generalize ht : ([] : Str) = t at hl
          cases hl with
          | nil => rfl
          | char => cases ht
          | blankRun b b' t x _ hb =>
            exact absurd (List.append_eq_nil_iff.1 ht.symm).1 hb.1
          | digitRun b b' t x _ hb => exact absurd (List.append_eq_nil_iff.1 ht.symm).1 hb.1
        subst this
        exact ⟨rfl, e1, e2⟩
    | cons c t =>
      by_cases hbl : sp = false ∧ isBlank c = true
      · obtain ⟨rfl, hbc⟩ := hbl
        obtain ⟨b, r, e, hb, hr⟩ := split_run isBlank (c :: t)
        have hb2 : ∀ c ∈ b, Blank c := fun c hc => (isBlank_iff c).1 (hb c hc)
        have hr2 : NotNext Blank r := fun c cs e2 hc => hr c cs e2 ((isBlank_iff c).2 hc)
        have hne : b ≠ [] := by
          intro e0; subst e0
          exact hr c t e.symm hbc
        obtain ⟨c0, b0, e0⟩ := List.exists_cons_of_ne_nil hne
        have hlen : r.length < n := by
          have := congrArg List.length e
          simp [e0] at this
          rw [← hn]; simp; omega
        have key : elemsRe ex false .other (chs (c :: t)) = .seq blanksRe (elemsRe ex false .other (chs r)) := by
          rw [e, e0]
          have hc0 : isBlank c0 = true := hb c0 (by simp [e0])
          simp only [chs, List.cons_append, List.map_cons, List.map_append, elemsRe, hc0, Bool.not_false, Bool.and_self, if_true,
            reduceCtorEq, if_false]
          have := elemsRe_blanks ex b0 (fun c hc => hb2 c (by simp [e0, hc])) (chs r)
          simp only [chs] at this
          rw [this, elemsRe_kind_blank]
          cases r with
          | nil => exact id
          | cons d r => exact hr2 d r rfl
        rw [key, mem_seq]
        constructor
        · rintro ⟨h1, m1, h2, m2, rfl⟩
          rw [mem_blanksRe] at m1
          obtain ⟨l2, l3, l4⟩ := (ih _ hlen r _ h2 rfl).1 m2
          refine ⟨?_, ?_, by simp [m1.2.2, l4]⟩
          · rw [e]; exact .blankRun b h1.1 r h2.1 rfl ⟨hne, hb2⟩ m1.1 hr2 l2
          · simp only [List.append_assoc, l3]; exact m1.2.1
        · obtain ⟨x, y, z⟩ := h
          rintro ⟨hl, e1, e2⟩
          dsimp only at hl e1 e2
          subst e2
          rw [e] at hl
          generalize hq : b ++ r = q at hl
          cases hl with
          | nil => simp [e0] at hq
          | char d t' x' n1 n2 hl =>
            rw [e0] at hq
            injection hq with hq1 hq2
            exact absurd ⟨rfl, hb2 d (by simp [e0, hq1])⟩ n1
          | digitRun b1 b1' t' x' _ hd =>
            obtain ⟨d0, d1, ed⟩ := List.exists_cons_of_ne_nil hd.1
            rw [e0, ed] at hq
            injection hq with hq1 hq2
            have h1 : isBlank c0 = true := hb c0 (by simp [e0])
            have h2 : isDigit c0 = true := by rw [hq1]; exact hd.2 d0 (by simp [ed])
            rw [isBlank_not_digit c0 h1] at h2; cases h2
          | blankRun b1 b1' t' x' _ hB hB' hN hl =>
            obtain ⟨e3, e4⟩ := run_unique Blank b b1 r t' hb2 hB.2 hr2 hN hq
            subst e3 e4
            refine ⟨(b1', x' ++ y, []), ?_, (x', y, []), ?_, rfl⟩
            · rw [mem_blanksRe]; exact ⟨hB', by simpa using e1, rfl⟩
            · exact (ih _ hlen r _ _ rfl).2 ⟨hl, rfl, rfl⟩
      · by_cases hdg : ex = false ∧ isDigit c = true
        · obtain ⟨rfl, hdc⟩ := hdg
          have hnb : isBlank c = false := by
            cases h : isBlank c with
            | false => rfl
            | true => rw [isBlank_not_digit c h] at hdc; cases hdc
          obtain ⟨b, r, e, hb, hr⟩ := split_run isDigit (c :: t)
          have hb2 : ∀ c ∈ b, Digit c := hb
          have hr2 : NotNext Digit r := hr
          have hne : b ≠ [] := by
            intro e0; subst e0
            exact hr c t e.symm hdc
          obtain ⟨c0, b0, e0⟩ := List.exists_cons_of_ne_nil hne
          have hlen : r.length < n := by
            have := congrArg List.length e
            simp [e0] at this
            rw [← hn]; simp; omega
          have key : elemsRe false sp .other (chs (c :: t)) =
              .seq (Re.plus true (.cls .digit)) (elemsRe false sp .other (chs r)) := by
            rw [e, e0]
            have hc0 : isDigit c0 = true := hb c0 (by simp [e0])
            have hcb : isBlank c0 = false := by
              cases h : isBlank c0 with
              | false => rfl
              | true => rw [isBlank_not_digit c0 h] at hc0; cases hc0
            simp only [chs, List.cons_append, List.map_cons, List.map_append, elemsRe, hc0, hcb, Bool.not_false, Bool.and_self,
              Bool.and_false, if_true, reduceCtorEq, if_false, Bool.false_eq_true]
            have := elemsRe_digits sp b0 (fun c hc => hb2 c (by simp [e0, hc])) (chs r)
            simp only [chs] at this
            rw [this, elemsRe_kind_digit]
            cases r with
            | nil => exact id
            | cons d r => exact hr2 d r rfl
          rw [key, mem_seq]
          constructor
          · rintro ⟨h1, m1, h2, m2, rfl⟩
            rw [mem_digitsRe] at m1
            obtain ⟨l2, l3, l4⟩ := (ih _ hlen r _ h2 rfl).1 m2
            refine ⟨?_, ?_, by simp [m1.2.2, l4]⟩
            · rw [e]; exact .digitRun b h1.1 r h2.1 rfl ⟨hne, hb2⟩ m1.1 hr2 l2
            · simp only [List.append_assoc, l3]; exact m1.2.1
          · obtain ⟨x, y, z⟩ := h
            rintro ⟨hl, e1, e2⟩
            dsimp only at hl e1 e2
            subst e2
            rw [e] at hl
            generalize hq : b ++ r = q at hl
            cases hl with
            | nil => simp [e0] at hq
            | char d t' x' n1 n2 hl =>
              rw [e0] at hq
              injection hq with hq1 hq2
              exact absurd ⟨rfl, hb2 d (by simp [e0, hq1])⟩ n2
            | blankRun b1 b1' t' x' _ hd =>
              obtain ⟨d0, d1, ed⟩ := List.exists_cons_of_ne_nil hd.1
              rw [e0, ed] at hq
              injection hq with hq1 hq2
              have h1 : isDigit c0 = true := hb c0 (by simp [e0])
              have h2 : isBlank c0 = true := by rw [hq1]; exact (isBlank_iff d0).2 (hd.2 d0 (by simp [ed]))
              rw [isBlank_not_digit c0 h2] at h1; cases h1
            | digitRun b1 b1' t' x' _ hB hB' hN hl =>
              obtain ⟨e3, e4⟩ := run_unique Digit b b1 r t' hb2 hB.2 hr2 hN hq
              subst e3 e4
              refine ⟨(b1', x' ++ y, []), ?_, (x', y, []), ?_, rfl⟩
              · rw [mem_digitsRe]; exact ⟨hB', by simpa using e1, rfl⟩
              · exact (ih _ hlen r _ _ rfl).2 ⟨hl, rfl, rfl⟩
        · have key : elemsRe ex sp .other (chs (c :: t)) = .seq (.cls (.lit c)) (elemsRe ex sp .other (chs t)) := by
            have h1 : (!sp && isBlank c) = false := by
              cases sp <;> cases hb : isBlank c <;> simp_all
            have h2 : (!ex && isDigit c) = false := by
              cases ex <;> cases hb : isDigit c <;> simp_all
            simp only [chs, List.map_cons, elemsRe, h1, h2, Bool.false_eq_true, if_false]
          have hlen : t.length < n := by rw [← hn]; simp
          rw [key, mem_seq]
          constructor
          · rintro ⟨h1, m1, h2, m2, rfl⟩
            rw [mem_cls] at m1
            obtain ⟨x, xs, rfl, ht, rfl⟩ := m1
            simp only [CC.test, beq_iff_eq] at ht
            subst ht
            obtain ⟨l2, l3, l4⟩ := (ih _ hlen t _ h2 rfl).1 m2
            refine ⟨.char c t h2.1 ?_ ?_ l2, by simp [l3], by simp [l4]⟩
            · rintro ⟨q1, q2⟩; exact hbl ⟨q1, (isBlank_iff c).2 q2⟩
            · rintro ⟨q1, q2⟩; exact hdg ⟨q1, q2⟩
          · obtain ⟨x, y, z⟩ := h
            rintro ⟨hl, e1, e2⟩
            dsimp only at hl e1 e2
            subst e2
            generalize hq : c :: t = q at hl
            cases hl with
            | nil => cases hq
            | char d t' x' n1 n2 hl =>
              injection hq with hq1 hq2
              subst hq1 hq2
              refine ⟨([c], x' ++ y, []), ?_, (x', y, []), ?_, rfl⟩
              · rw [mem_cls]; exact ⟨c, x' ++ y, by simpa using e1.symm, by simp [CC.test], rfl⟩
              · exact (ih _ hlen t _ _ rfl).2 ⟨hl, rfl, rfl⟩
            | blankRun b1 b1' t' x' hsp hd =>
              obtain ⟨d0, d1, ed⟩ := List.exists_cons_of_ne_nil hd.1
              rw [ed] at hq
              injection hq with hq1 hq2
              exact absurd ⟨hsp, by rw [hq1]; exact (isBlank_iff d0).2 (hd.2 d0 (by simp [ed]))⟩ hbl
            | digitRun b1 b1' t' x' hsp hd =>
              obtain ⟨d0, d1, ed⟩ := List.exists_cons_of_ne_nil hd.1
              rw [ed] at hq
              injection hq with hq1 hq2
              exact absurd ⟨hsp, by rw [hq1]; exact hd.2 d0 (by simp [ed])⟩ hdg

end TTP
