import Verif.Model.Args
import Verif.Spec.Args
import Verif.Proofs.Json2
import Verif.Proofs.Template
/-!
# Arguments of functions: the reader accepts the grammar
-/

namespace TTP
open Py Spec
namespace Args

/-! ## white space -/

theorem isBlank_iff (c : Char) : isBlank c = true ↔ (c = ' ' ∨ c = '\t' ∨ c.toNat = 12) := by
  unfold isBlank
  rw [Bool.or_eq_true, Bool.or_eq_true, beq_iff_eq, beq_iff_eq, beq_iff_eq, or_assoc]
  have : c = Char.ofNat 12 ↔ c.toNat = 12 := by
    constructor
    · rintro rfl; decide
    · intro h
      rw [← Char.ofNat_toNat c, h]
  rw [this]

theorem skip_blank {w : Str} (h : ABlank w) (s : Str) : skip (w ++ s) = skip s := by
  induction w with
  | nil => rfl
  | cons c w ih =>
    have hc : isBlank c = true := (isBlank_iff c).2 (h c (by simp))
    unfold skip at *
    rw [List.cons_append, List.dropWhile_cons_of_pos hc]
    exact ih (fun d hd => h d (by simp [hd]))

theorem skip_self {c : Char} (hc : isBlank c = false) (s : Str) : skip (c :: s) = c :: s := by
  unfold skip
  rw [List.dropWhile_cons_of_neg (by simp [hc])]

theorem skip_split (s : Str) : ∃ w, s = w ++ skip s ∧ ABlank w := by
  refine ⟨s.takeWhile isBlank, (List.takeWhile_append_dropWhile).symm, ?_⟩
  intro c hc
  exact (isBlank_iff c).1 (takeWhile_imp _ _ c hc)

theorem skip_nil {w : Str} (h : ABlank w) : skip w = [] := by
  have := skip_blank h []
  rwa [List.append_nil] at this

theorem blank_of_skip {s : Str} (h : skip s = []) : ABlank s := by
  obtain ⟨w, h1, h2⟩ := skip_split s
  rw [h, List.append_nil] at h1
  rw [h1]; exact h2

theorem skip_head {s : Str} {c : Char} {r : Str} (h : skip s = c :: r) : isBlank c = false := by
  unfold skip at h
  cases hb : isBlank c with
  | false => rfl
  | true =>
    exfalso
    induction s with
    | nil => cases h
    | cons d s ih =>
      cases hd : isBlank d with
      | true => rw [List.dropWhile_cons_of_pos hd] at h; exact ih h
      | false =>
        rw [List.dropWhile_cons_of_neg (by simp [hd])] at h
        rw [List.cons.injEq] at h
        rw [h.1, hb] at hd; cases hd

theorem skip_skip (s : Str) : skip (skip s) = skip s := by
  cases h : skip s with
  | nil => rfl
  | cons c r => rw [skip_self (skip_head h)]

theorem after_complete {w : Str} (h : ABlank w) {c : Char} (hc : isBlank c = false) (r : Str) : after c (w ++ c :: r) = some r := by
  unfold after
  rw [skip_blank h, skip_self hc]
  simp

theorem after_other {w : Str} (h : ABlank w) {c d : Char} (hd : isBlank d = false) (hne : d ≠ c) (r : Str) : after c (w ++ d :: r) = none := by
  unfold after
  rw [skip_blank h, skip_self hd]
  simp [hne]

theorem after_sound {c : Char} {s r : Str} (h : after c s = some r) : ∃ w, ABlank w ∧ s = w ++ c :: r := by
  obtain ⟨w, h1, h2⟩ := skip_split s
  unfold after at h
  refine ⟨w, h2, ?_⟩
  cases e : skip s with
  | nil => rw [e] at h; cases h
  | cons d q =>
    rw [e] at h
    simp only at h
    split at h
    · rename_i hd
      cases h
      rw [h1, e, hd]
    · cases h

/-! ## characters -/

theorem isQuote_iff (c : Char) : isQuote c = true ↔ c = '"' ∨ c = '\'' := by
  unfold isQuote
  rw [Bool.or_eq_true, beq_iff_eq, beq_iff_eq]

theorem quote_facts {q : Char} (h : q = '"' ∨ q = '\'') : isQuote q = true ∧ isBlank q = false ∧ isDig q = false ∧ isWordChar q = false ∧ q ≠ '\\' := by
  rcases h with rfl | rfl <;> decide

theorem isDig_iff (c : Char) : isDig c = true ↔ JDigit c := by
  unfold isDig JDigit
  rw [Bool.and_eq_true, decide_eq_true_eq, decide_eq_true_eq]

theorem isStart_iff (c : Char) : isStart c = true ↔ (('a' ≤ c ∧ c ≤ 'z') ∨ ('A' ≤ c ∧ c ≤ 'Z') ∨ c = '_') := by
  unfold isStart
  simp only [Bool.or_eq_true, Bool.and_eq_true, decide_eq_true_eq, beq_iff_eq, or_assoc]

theorem isWordChar_iff (c : Char) : isWordChar c = true ↔ (('a' ≤ c ∧ c ≤ 'z') ∨ ('A' ≤ c ∧ c ≤ 'Z') ∨ c = '_' ∨ JDigit c) := by
  unfold isWordChar
  rw [Bool.or_eq_true, isStart_iff, isDig_iff, or_assoc, or_assoc]

theorem bad_iff (c : Char) : c ∈ badChars ↔ ¬ Inline c := by
  unfold badChars Inline
  simp only [List.mem_cons, List.not_mem_nil, or_false]
  have : c = Char.ofNat 0 ↔ c.toNat = 0 := by
    constructor
    · rintro rfl; decide
    · intro h
      rw [← Char.ofNat_toNat c, h]
  rw [this]
  grind

theorem escapes_eq : escapes = argEscapes := rfl
theorem others_eq : otherEscapes = argOthers := rfl

theorem escape_some {e c : Char} (h : (e, c) ∈ argEscapes) : escape e = some [c] := by
  have key : ∀ p ∈ argEscapes, escape p.1 = some [p.2] := by decide
  exact key _ h

theorem escape_kept {c : Char} (h1 : c ∉ argEscapes.map Prod.fst) (h2 : c ∉ argOthers) (h3 : Inline c) : escape c = some ['\\', c] := by
  unfold escape
  have : Dict.get? escapes c = none := (Dict.get?_eq_none_iff _ _).2 h1
  rw [this]
  simp only
  rw [if_neg]
  rintro (h | h)
  · exact h2 h
  · exact (bad_iff c).1 h h3

theorem escape_sound {c : Char} {t : Str} (h : escape c = some t) : (∃ d, (c, d) ∈ argEscapes ∧ t = [d]) ∨
    (c ∉ argEscapes.map Prod.fst ∧ c ∉ argOthers ∧ Inline c ∧ t = ['\\', c]) := by
  unfold escape at h
  cases e : Dict.get? escapes c with
  | some d =>
    rw [e] at h
    cases h
    exact Or.inl ⟨d, Dict.mem_of_get? _ _ _ e, rfl⟩
  | none =>
    rw [e] at h
    simp only at h
    split at h
    · cases h
    · rename_i hn
      cases h
      refine Or.inr ⟨(Dict.get?_eq_none_iff _ _).1 e, fun h => hn (Or.inl h), ?_, rfl⟩
      by_cases hi : Inline c
      · exact hi
      · exact absurd (Or.inr ((bad_iff c).2 hi)) hn

/-! ## texts in quotes -/

theorem quoted_complete {q : Char} (hq : q = '"' ∨ q = '\'') {t v : Str} (h : AText q t v) (r : Str) : quoted q false (t ++ q :: r) = some (v, r) := by
  have hb := (quote_facts hq).2.2.2.2
  induction h with
  | nil => rw [List.nil_append, quoted, if_pos rfl]
  | plain c h1 h2 h3 _ ih =>
    rw [List.cons_append, quoted, if_neg h1, if_neg h2, if_neg (fun h => (bad_iff c).1 h h3), ih]
    rfl
  | @escape e c t v h1 _ ih =>
    rw [List.cons_append, List.cons_append, quoted, if_neg (Ne.symm hb), if_pos rfl, quoted]
    simp only [escape_some h1]
    rw [ih]; rfl
  | kept c h1 h2 h3 _ ih =>
    rw [List.cons_append, List.cons_append, quoted, if_neg (Ne.symm hb), if_pos rfl, quoted]
    simp only [escape_kept h1 h2 h3]
    rw [ih]; rfl

theorem before_some {t : Str} {x : Option (Str × Str)} {v r : Str} (h : before t x = some (v, r)) : ∃ u, x = some (u, r) ∧ v = t ++ u := by
  unfold before at h
  cases x with
  | none => cases h
  | some p =>
    simp only [Option.map_some, Option.some.injEq, Prod.mk.injEq] at h
    exact ⟨p.1, by rw [← h.2], h.1.symm⟩

theorem quoted_sound {q : Char} : ∀ (s : Str) (v r : Str), (quoted q false s = some (v, r) → ∃ t, s = t ++ q :: r ∧ AText q t v) ∧
    (quoted q true s = some (v, r) → ∃ t, '\\' :: s = t ++ q :: r ∧ AText q t v ∧ t.head? = some '\\') := by
  intro s
  induction s with
  | nil => intro v r; constructor <;> (intro h; rw [quoted] at h; cases h)
  | cons c s ih =>
    intro v r
    constructor
    · intro h
      rw [quoted] at h
      split at h
      · rename_i hc
        simp only [Option.some.injEq, Prod.mk.injEq] at h
        obtain ⟨rfl, rfl⟩ := h
        exact ⟨[], by rw [hc]; rfl, .nil⟩
      · rename_i hc
        split at h
        · rename_i hb
          obtain ⟨t, h1, h2, _⟩ := (ih v r).2 h
          exact ⟨t, by rw [hb]; exact h1, h2⟩
        · rename_i hb
          split at h
          · cases h
          · rename_i hbad
            obtain ⟨u, h1, rfl⟩ := before_some h
            obtain ⟨t, rfl, h3⟩ := (ih u r).1 h1
            refine ⟨c :: t, rfl, .plain c hc hb ?_ h3⟩
            by_cases hi : Inline c
            · exact hi
            · exact absurd ((bad_iff c).2 hi) hbad
    · intro h
      rw [quoted] at h
      cases he : escape c with
      | none => rw [he] at h; cases h
      | some w =>
        rw [he] at h
        simp only at h
        obtain ⟨u, h1, rfl⟩ := before_some h
        obtain ⟨t, rfl, h3⟩ := (ih u r).1 h1
        rcases escape_sound he with ⟨d, hd, rfl⟩ | ⟨k1, k2, k3, rfl⟩
        · exact ⟨'\\' :: c :: t, rfl, .escape hd h3, rfl⟩
        · exact ⟨'\\' :: c :: t, rfl, .kept c k1 k2 k3 h3, rfl⟩

theorem atext_head {q : Char} (hq : q = '"' ∨ q = '\'') {t v : Str} (h : AText q t v) (r : Str) : (t ++ q :: r).head? = some q ↔ t = [] := by
  have hb := (quote_facts hq).2.2.2.2
  cases h with
  | nil => simp
  | plain c h1 _ _ _ => simp [h1]
  | escape _ _ => simp [Ne.symm hb]
  | kept _ _ _ _ _ => simp [Ne.symm hb]

theorem literal_complete {q : Char} (hq : q = '"' ∨ q = '\'') {t v : Str} (h : AText q t v) {r : Str} (hr : t = [] → r.head? ≠ some q) :
    literal (q :: (t ++ q :: r)) = some (v, r) := by
  rw [literal, if_pos (quote_facts hq).1, quoted_complete hq h]
  simp only
  rw [if_neg]
  rintro ⟨h1, h2⟩
  exact hr ((atext_head hq h r).1 h1) h2

theorem literal_sound {s v r : Str} (h : literal s = some (v, r)) : ∃ q t, (q = '"' ∨ q = '\'') ∧ s = q :: (t ++ q :: r) ∧ AText q t v ∧ (t = [] → r.head? ≠ some q) := by
  cases s with
  | nil => cases h
  | cons q s =>
    rw [literal] at h
    split at h
    · rename_i hq
      have hq' := (isQuote_iff q).1 hq
      cases e : quoted q false s with
      | none => rw [e] at h; cases h
      | some p =>
        rw [e] at h
        simp only at h
        split at h
        · cases h
        · rename_i hn
          simp only [Option.some.injEq] at h
          subst h
          obtain ⟨t, rfl, h2⟩ := (quoted_sound s v r).1 e
          refine ⟨q, t, hq', rfl, h2, ?_⟩
          rintro rfl hr
          exact hn ⟨rfl, hr⟩
    · cases h

/-- what may follow a value -/
def Ends (r : Str) : Prop := (∀ c q, r = c :: q → isWordChar c = false) ∧ quoteNext r = false

theorem ends_sep {w : Str} (h : ABlank w) {c : Char} (hc : isBlank c = false) (h1 : isWordChar c = false) (h2 : isQuote c = false) (r : Str) : Ends (w ++ c :: r) := by
  constructor
  · intro d q e
    cases w with
    | nil => rw [List.nil_append, List.cons.injEq] at e; rw [← e.1]; exact h1
    | cons x w =>
      rw [List.cons_append, List.cons.injEq] at e
      rw [← e.1]
      rcases h x (by simp) with rfl | rfl | hx
      · decide
      · decide
      · have : x = Char.ofNat 12 := by rw [← Char.ofNat_toNat x, hx]
        rw [this]; decide
  · unfold quoteNext
    rw [skip_blank h, skip_self hc]
    exact h2

theorem ends_end {w : Str} (h : ABlank w) : Ends w := by
  constructor
  · intro d q e
    subst e
    rcases h d (by simp) with rfl | rfl | hx
    · decide
    · decide
    · have : d = Char.ofNat 12 := by rw [← Char.ofNat_toNat d, hx]
      rw [this]; decide
  · unfold quoteNext
    rw [skip_nil h]
    rfl

theorem ends_quote {r : Str} (h : Ends r) {q : Char} (hq : q = '"' ∨ q = '\'') : r.head? ≠ some q := by
  intro e
  cases r with
  | nil => cases e
  | cons c r =>
    simp only [List.head?_cons, Option.some.injEq] at e
    subst e
    have := h.2
    unfold quoteNext at this
    rw [skip_self (quote_facts hq).2.1] at this
    have h2 := (quote_facts hq).1
    simp [h2] at this

theorem atexts_head {s v : Str} (h : ATexts s v) : ∃ q r, s = q :: r ∧ (q = '"' ∨ q = '\'') := by
  cases h with
  | one hq _ => exact ⟨_, _, rfl, hq⟩
  | more hq _ _ _ _ => exact ⟨_, _, rfl, hq⟩

theorem texts_complete {s v : Str} (h : ATexts s v) {r : Str} (hr : Ends r) : ∀ n, s.length ≤ n → texts n (s ++ r) = some (v, r) := by
  induction h with
  | @one q t v hq ht =>
    intro n hn
    obtain ⟨m, rfl⟩ : ∃ m, n = m + 1 := ⟨n - 1, by simp at hn; omega⟩
    have e : q :: (t ++ [q]) ++ r = q :: (t ++ q :: r) := by simp
    rw [texts, e, literal_complete hq ht (fun _ => ends_quote hr hq)]
    simp only [hr.2, Bool.false_eq_true, if_false]
  | @more q t v w s u hq ht hw hs hh ih =>
    intro n hn
    obtain ⟨m, rfl⟩ : ∃ m, n = m + 1 := ⟨n - 1, by simp at hn; omega⟩
    have e : q :: (t ++ (q :: (w ++ s))) ++ r = q :: (t ++ q :: (w ++ (s ++ r))) := by simp
    obtain ⟨q', s', hs', hq'⟩ := atexts_head hs
    have e2 : skip (w ++ (s ++ r)) = s ++ r := by
      rw [skip_blank hw, hs', List.cons_append, skip_self (quote_facts hq').2.1]
    have e3 : quoteNext (w ++ (s ++ r)) = true := by
      unfold quoteNext
      rw [e2, hs']
      exact (quote_facts hq').1
    rw [texts, e, literal_complete hq ht]
    · simp only [e3, if_true, e2]
      rw [ih m (by simp at hn ⊢; omega)]
      rfl
    · intro ht0 hh'
      refine hh ht0 ?_
      rw [← List.append_assoc] at hh'
      cases hws : w ++ s with
      | nil => rw [hs'] at hws; simp at hws
      | cons a b => rw [hws] at hh'; exact hh'

theorem texts_sound : ∀ (n : Nat) (s v r : Str), texts n s = some (v, r) → ∃ t, s = t ++ r ∧ ATexts t v ∧ quoteNext r = false := by
  intro n
  induction n with
  | zero => intro s v r h; cases h
  | succ n ih =>
    intro s v r h
    rw [texts] at h
    cases e : literal s with
    | none => rw [e] at h; cases h
    | some p =>
      obtain ⟨v1, r1⟩ := p
      rw [e] at h
      simp only at h
      obtain ⟨q, t, hq, rfl, ht, hh⟩ := literal_sound e
      split at h
      · obtain ⟨u, h1, rfl⟩ := before_some h
        obtain ⟨t2, h2, h3, h4⟩ := ih _ _ _ h1
        obtain ⟨w, hw1, hw2⟩ := skip_split r1
        rw [h2] at hw1
        refine ⟨q :: (t ++ (q :: (w ++ t2))), by rw [hw1]; simp, .more hq ht hw2 h3 ?_, h4⟩
        intro ht0 hh'
        refine hh ht0 ?_
        rw [hw1, ← List.append_assoc]
        cases hws : w ++ t2 with
        | nil => rw [hws] at hh'; cases hh'
        | cons a b => rw [hws] at hh'; exact hh'
      · rename_i hn
        simp only [Option.some.injEq, Prod.mk.injEq] at h
        obtain ⟨rfl, rfl⟩ := h
        exact ⟨q :: (t ++ [q]), by simp, .one hq ht, by simpa using hn⟩

/-! ## numbers and names -/

theorem takeWhile_prefix {p : Char → Bool} {a r : Str} (ha : ∀ c ∈ a, p c = true) (hr : ∀ c q, r = c :: q → p c = false) :
    (a ++ r).takeWhile p = a ∧ (a ++ r).dropWhile p = r := by
  induction a with
  | nil =>
    cases r with
    | nil => exact ⟨rfl, rfl⟩
    | cons c r =>
      have := hr c r rfl
      simp [this]
  | cons c a ih =>
    have hc := ha c (by simp)
    obtain ⟨h1, h2⟩ := ih (fun d hd => ha d (by simp [hd]))
    rw [List.cons_append, List.takeWhile_cons_of_pos hc, List.dropWhile_cons_of_pos hc, h1, h2]
    exact ⟨rfl, rfl⟩

theorem digits_all {ds : Str} (h : IntDigits ds) : ∀ c ∈ ds, JDigit c := by
  rcases h with rfl | ⟨c, cs, rfl, _, h1, h2⟩
  · intro c hc
    rw [List.mem_singleton] at hc
    rw [hc]
    exact (isDig_iff _).1 (by decide)
  · intro d hd
    rcases List.mem_cons.1 hd with rfl | hd
    · exact h1
    · exact h2 d hd

theorem number_complete {ds : Str} (h : ADigits ds) {r : Str} (hr : ∀ c q, r = c :: q → isWordChar c = false) : number (ds ++ r) = some (decimal ds, r) := by
  obtain ⟨h1, h2⟩ := takeWhile_prefix (p := isDig) (a := ds) (r := r) (fun c hc => (isDig_iff c).2 (digits_all h.1 c hc)) (by
    intro c q e
    have := hr c q e
    unfold isWordChar at this
    simp only [Bool.or_eq_false_iff] at this
    exact this.2)
  unfold number
  rw [h1, h2]
  simp only
  rw [if_neg]
  · rw [Json.natOfDigits_decimal]
  · rintro (e | ⟨e1, e2⟩ | e)
    · rcases h.1 with h' | ⟨c, cs, h', _⟩ <;> (rw [h'] at e; cases e)
    · rcases h.1 with h' | ⟨c, cs, h', hc, _⟩
      · exact e2 h'
      · rw [h'] at e1
        simp only [List.head?_cons, Option.some.injEq] at e1
        exact hc e1
    · have := h.2; omega

theorem number_sound {s : Str} {n : Nat} {r : Str} (h : number s = some (n, r)) : ∃ ds, s = ds ++ r ∧ ADigits ds ∧ n = decimal ds := by
  unfold number at h
  simp only at h
  split at h
  · cases h
  · rename_i hn
    simp only [Option.some.injEq, Prod.mk.injEq] at h
    obtain ⟨rfl, rfl⟩ := h
    refine ⟨s.takeWhile isDig, (List.takeWhile_append_dropWhile).symm, ⟨?_, ?_⟩, Json.natOfDigits_decimal _⟩
    · have hall : ∀ c ∈ s.takeWhile isDig, JDigit c := fun c hc => (isDig_iff c).1 (takeWhile_imp _ _ c hc)
      cases e : s.takeWhile isDig with
      | nil => exact absurd (Or.inl e) hn
      | cons c cs =>
        rw [e] at hall hn
        by_cases hz : c = '0'
        · left
          by_cases h0 : c :: cs = ['0']
          · exact h0
          · exact absurd (Or.inr (Or.inl ⟨by rw [hz]; rfl, h0⟩)) hn
        · exact Or.inr ⟨c, cs, rfl, hz, hall c (by simp), fun d hd => hall d (by simp [hd])⟩
    · by_cases hl : 4300 < (s.takeWhile isDig).length
      · exact absurd (Or.inr (Or.inr hl)) hn
      · omega

theorem start_of_name {c : Char} {r : Str} (h : AName (c :: r)) : isStart c = true := by
  obtain ⟨⟨c', r', e, hd⟩, h2⟩ := h
  rw [List.cons.injEq] at e
  rw [← e.1] at hd
  rw [isStart_iff]
  rcases h2 c (by simp) with h | h | h | h
  · exact Or.inl h
  · exact Or.inr (Or.inl h)
  · exact Or.inr (Or.inr h)
  · exact absurd h hd

theorem word_complete {n : Str} (h : AName n) {r : Str} (hr : ∀ c q, r = c :: q → isWordChar c = false) : word (n ++ r) = some (n, r) := by
  obtain ⟨h1, h2⟩ := takeWhile_prefix (p := isWordChar) (a := n) (r := r) (fun c hc => (isWordChar_iff c).2 (h.2 c hc)) hr
  unfold word
  rw [h1, h2]
  have h' := h
  obtain ⟨⟨c, q, e, _⟩, _⟩ := h'
  subst e
  have := start_of_name h
  rw [if_pos (by simpa using this)]

theorem start_digit {c : Char} (h : isStart c = true) : isDig c = false ∧ isQuote c = false ∧ c ≠ '-' ∧ c ≠ '[' ∧ isBlank c = false ∧ c ≠ ']' ∧ c ≠ ',' := by
  have hs := (isStart_iff c).1 h
  refine ⟨?_, ?_, ?_, ?_, ?_, ?_, ?_⟩
  · cases hd : isDig c with
    | false => rfl
    | true =>
      exfalso
      have := (isDig_iff c).1 hd
      unfold JDigit at this
      simp only [Char.le_def, UInt32.le_iff_toNat_le] at hs this
      rcases hs with hs | hs | rfl
      · have h1 := hs.1; have h2 := this.2; simp at h1 h2; omega
      · have h1 := hs.1; have h2 := this.2; simp at h1 h2; omega
      · have h2 := this.2; simp at h2
  · cases hq : isQuote c with
    | false => rfl
    | true => rcases (isQuote_iff c).1 hq with rfl | rfl <;> exact absurd h (by decide)
  · rintro rfl; exact absurd h (by decide)
  · rintro rfl; exact absurd h (by decide)
  · cases hb : isBlank c with
    | false => rfl
    | true =>
      rcases (isBlank_iff c).1 hb with rfl | rfl | hx
      · exact absurd h (by decide)
      · exact absurd h (by decide)
      · have : c = Char.ofNat 12 := by rw [← Char.ofNat_toNat c, hx]
        rw [this] at h; exact absurd h (by decide)
  · rintro rfl; exact absurd h (by decide)
  · rintro rfl; exact absurd h (by decide)

theorem word_sound {s n r : Str} (h : word s = some (n, r)) : s = n ++ r ∧ AName n ∧ ∀ c q, r = c :: q → isWordChar c = false := by
  unfold word at h
  split at h
  · rename_i hs
    simp only [Option.some.injEq, Prod.mk.injEq] at h
    obtain ⟨rfl, rfl⟩ := h
    refine ⟨(List.takeWhile_append_dropWhile).symm, ⟨?_, ?_⟩, ?_⟩
    · cases s with
      | nil => cases hs
      | cons c s =>
        have hst : isStart c = true := hs
        have hw : isWordChar c = true := by unfold isWordChar; rw [hst]; rfl
        rw [List.takeWhile_cons_of_pos hw]
        refine ⟨c, _, rfl, ?_⟩
        intro hd
        have := (start_digit hst).1
        rw [(isDig_iff c).2 hd] at this
        cases this
    · intro d hd
      exact (isWordChar_iff d).1 (takeWhile_imp _ _ d hd)
    · intro c q e
      cases hw : isWordChar c with
      | false => rfl
      | true =>
        exfalso
        clear hs
        induction s with
        | nil => cases e
        | cons d s ih =>
          cases hd : isWordChar d with
          | true => rw [List.dropWhile_cons_of_pos hd] at e; exact ih e
          | false =>
            rw [List.dropWhile_cons_of_neg (by simp [hd])] at e
            rw [List.cons.injEq] at e
            rw [e.1, hw] at hd; cases hd
  · cases h

theorem isOther_iff (n : Str) (h : AName n) : isOther n = false ↔ Bare n := by
  unfold isOther Bare
  have e1 : pyKeywords = pythonWords := rfl
  have e2 : moduleNames = takenWords := rfl
  rw [e1, e2]
  simp only [Bool.or_eq_false_iff, decide_eq_false_iff_not]
  have : startsWith n c!"__" = false ↔ ¬ c!"__" <+: n := by
    rw [← Bool.not_eq_true]
    have e : startsWith n c!"__" = true ↔ c!"__" <+: n := List.isPrefixOf_iff_prefix
    rw [e]
  rw [this]
  exact ⟨fun h' => ⟨h, h'.1.1, h'.1.2, h'.2⟩, fun h' => ⟨⟨h'.2.1, h'.2.2.1⟩, h'.2.2.2⟩⟩

theorem nameVal_iff (n : Str) (v : Val) : nameVal n = v ↔ BareMeans n v := by
  unfold nameVal
  constructor
  · intro h
    split at h
    · rw [← h]; exact .false ‹_›
    · split at h
      · rw [← h]; exact .true ‹_›
      · split at h
        · rw [← h]; exact .none ‹_›
        · rw [← h]; exact .text (by simp [*])
  · intro h
    cases h with
    | «false» h => rw [if_pos h]
    | «true» h => rw [if_neg (by rw [h]; decide), if_pos h]
    | none h => rw [if_neg (by rw [h]; decide), if_neg (by rw [h]; decide), if_pos h]
    | text h =>
      simp only [List.mem_cons, List.not_mem_nil, or_false, not_or] at h
      rw [if_neg h.1, if_neg h.2.1, if_neg h.2.2]

end Args
end TTP
