import Verif.Model.XmlText
import Verif.Spec.XmlText
import Verif.Proofs.Json
import Verif.Proofs.Template
/-!
# XML texts: parts of tags
-/

namespace TTP.XmlText
open Py Spec

/-! ## Characters -/

theorem isChar_iff (c : Char) : isChar c = true ↔ XChar c := by
  unfold isChar XChar
  have e : ∀ d : Char, c = d ↔ c.toNat = d.toNat := fun d => ⟨fun h => by rw [h], fun h => Char.ext (UInt32.toNat.inj h)⟩
  rw [decide_eq_true_iff, e '\t', e '\n', e '\r']
  rfl

theorem isWs_iff (c : Char) : isWs c = true ↔ XBlank [c] := by
  unfold isWs XBlank
  simp

theorem isWs_or (c : Char) : isWs c = true ↔ (c = ' ' ∨ c = '\t' ∨ c = '\n') := by
  unfold isWs; simp

theorem blank_iff (s : Str) : XBlank s ↔ ∀ c ∈ s, isWs c = true := by
  unfold XBlank; simp only [isWs_or]

theorem blank_nil : XBlank [] := fun _ h => by cases h

theorem blank_cons {c : Char} {s : Str} (h : XBlank (c :: s)) : XBlank [c] ∧ XBlank s :=
  ⟨fun d hd => h d (by simp at hd; simp [hd]), fun d hd => h d (by simp [hd])⟩

theorem nameStart_iff (c : Char) : isNameStart c = true ↔ XNameStart c := by
  unfold isNameStart XNameStart
  rw [decide_eq_true_iff]
  rfl

theorem nameChar_iff (c : Char) : isNameChar c = true ↔ (XNameStart c ∨ JDigit c ∨ c = '-' ∨ c = '.') := by
  unfold isNameChar JDigit
  rw [Bool.or_eq_true, nameStart_iff, decide_eq_true_iff]
  rfl

/-- `s` does not begin with a character of which `p` holds -/
def NotFirst (p : Char → Bool) (s : Str) : Prop := ∀ c r, s = c :: r → p c = false

theorem notFirst_nil (p : Char → Bool) : NotFirst p [] := fun _ _ h => by cases h

theorem notFirst_cons {p : Char → Bool} {c : Char} {s : Str} (h : p c = false) : NotFirst p (c :: s) := by
  intro d r e; cases e; exact h

theorem takeWhile_all {p : Char → Bool} {w r : Str} (h : ∀ c ∈ w, p c = true) (hr : NotFirst p r) : (w ++ r).takeWhile p = w := by
  induction w with
  | nil =>
    cases r with
    | nil => rfl
    | cons c r => simp [hr c r rfl]
  | cons c w ih => simp [h c (by simp), ih (fun d hd => h d (by simp [hd]))]

theorem dropWhile_all {p : Char → Bool} {w r : Str} (h : ∀ c ∈ w, p c = true) (hr : NotFirst p r) : (w ++ r).dropWhile p = r := by
  induction w with
  | nil =>
    cases r with
    | nil => rfl
    | cons c r => simp [hr c r rfl]
  | cons c w ih => simp [h c (by simp), ih (fun d hd => h d (by simp [hd]))]

theorem dropWhile_notFirst (p : Char → Bool) (s : Str) : NotFirst p (s.dropWhile p) := by
  induction s with
  | nil => exact notFirst_nil p
  | cons c s ih =>
    rw [List.dropWhile_cons]
    cases h : p c with
    | true => simpa using ih
    | false => simpa using notFirst_cons h

theorem dropWhile_split (p : Char → Bool) (s : Str) : s = s.takeWhile p ++ s.dropWhile p ∧ (∀ c ∈ s.takeWhile p, p c = true) :=
  ⟨(List.takeWhile_append_dropWhile).symm, fun c hc => (List.all_eq_true.1 (List.all_takeWhile (p := p) (l := s))) c hc⟩

theorem skipWs_blank {w r : Str} (hw : XBlank w) (hr : NotFirst isWs r) : skipWs (w ++ r) = r :=
  dropWhile_all ((blank_iff w).1 hw) hr

theorem skipWs_self {r : Str} (hr : NotFirst isWs r) : skipWs r = r := skipWs_blank (w := []) blank_nil hr

theorem skipWs_split (s : Str) : ∃ w, s = w ++ skipWs s ∧ XBlank w ∧ NotFirst isWs (skipWs s) :=
  ⟨s.takeWhile isWs, (dropWhile_split isWs s).1, (blank_iff _).2 (dropWhile_split isWs s).2, dropWhile_notFirst isWs s⟩

theorem skipWs_ne {s : Str} {w : Str} (hw : XBlank w) (hne : w ≠ []) : skipWs (w ++ s) ≠ w ++ s := by
  intro e
  obtain ⟨c, w, rfl⟩ := List.exists_cons_of_ne_nil hne
  have h1 := (isWs_iff c).2 (blank_cons hw).1
  have := dropWhile_notFirst isWs (c :: w ++ s)
  unfold skipWs at e
  rw [e] at this
  rw [this c _ rfl] at h1
  cases h1

theorem name_complete {n r : Str} (hn : XName n) (hr : NotFirst isNameChar r) : name (n ++ r) = some (n, r) := by
  obtain ⟨c, t, rfl, h1, h2⟩ := hn
  rw [List.cons_append, name, if_pos ((nameStart_iff c).2 h1)]
  have h2' : ∀ c ∈ t, isNameChar c = true := fun c hc => (nameChar_iff c).2 (h2 c hc)
  rw [takeWhile_all h2' hr, dropWhile_all h2' hr]

theorem name_sound {s n r : Str} (h : name s = some (n, r)) : s = n ++ r ∧ XName n ∧ NotFirst isNameChar r := by
  cases s with
  | nil => cases h
  | cons c t =>
    rw [name] at h
    split at h
    · rename_i hc
      simp only [Option.some.injEq, Prod.mk.injEq] at h
      obtain ⟨rfl, rfl⟩ := h
      refine ⟨?_, ⟨c, _, rfl, (nameStart_iff c).1 hc, fun d hd => (nameChar_iff d).1 ((dropWhile_split isNameChar t).2 d hd)⟩, dropWhile_notFirst _ _⟩
      rw [List.cons_append, ← (dropWhile_split isNameChar t).1]
    · cases h

theorem name_ne_nil {n : Str} (h : XName n) : n ≠ [] := by
  obtain ⟨c, r, rfl, _⟩ := h
  simp

/-- a name begins with another character than `c` -/
theorem name_head {n : Str} (h : XName n) : ∃ c r, n = c :: r ∧ isNameStart c = true := by
  obtain ⟨c, r, rfl, h1, _⟩ := h
  exact ⟨c, r, rfl, (nameStart_iff c).2 h1⟩

/-! ## Repetition -/

/-- one step after the other until nothing is left -/
inductive Steps {α : Type} (step : Str → Option (α × Str)) : Str → List α → Prop
  | nil : Steps step [] []
  | cons {s r : Str} {a : α} {as : List α} : step s = some (a, r) → Steps step r as → Steps step s (a :: as)

theorem many_sound {α : Type} {step : Str → Option (α × Str)} {n : Nat} {s : Str} {as : List α} (h : many step n s = some as) : Steps step s as := by
  induction n generalizing s as with
  | zero =>
    cases s with
    | nil => rw [many] at h; cases h; exact .nil
    | cons c s => rw [many] at h; cases h
  | succ n ih =>
    cases s with
    | nil => rw [many] at h; cases h; exact .nil
    | cons c s =>
      rw [many] at h
      split at h
      · cases h
      · rename_i a r e
        rw [Option.map_eq_some_iff] at h
        obtain ⟨as', h1, rfl⟩ := h
        exact .cons e (ih h1)

theorem many_complete {α : Type} {step : Str → Option (α × Str)} (hs : ∀ s a r, step s = some (a, r) → r.length < s.length) {s : Str} {as : List α}
    (h : Steps step s as) {n : Nat} (hn : s.length ≤ n) : many step n s = some as := by
  induction h generalizing n with
  | nil => cases n <;> rfl
  | @cons s r a as h1 _ ih =>
    have hlt := hs _ _ _ h1
    cases s with
    | nil => simp at hlt
    | cons c s =>
      cases n with
      | zero => simp at hn
      | succ n =>
        rw [many]
        simp only [h1]
        rw [ih (by simp at hn hlt; omega)]
        rfl

theorem many_iff {α : Type} {step : Str → Option (α × Str)} (hs : ∀ s a r, step s = some (a, r) → r.length < s.length) (s : Str) (as : List α) :
    many step s.length s = some as ↔ Steps step s as := ⟨many_sound, fun h => many_complete hs h (Nat.le_refl _)⟩

/-! ## The first occurrence -/

/-- no `e` begins in `b` when `e` follows `b` -/
def First (e b : Str) : Prop := ∀ a t, b ++ e.dropLast ≠ a ++ (e ++ t)

theorem startsWith_iff (s p : Str) : startsWith s p = true ↔ ∃ r, s = p ++ r := isPrefixOf_iff' p s

theorem startsWith_false {s p : Str} (h : ∀ r, s ≠ p ++ r) : startsWith s p = false := by
  rw [Bool.eq_false_iff]
  intro e
  obtain ⟨r, hr⟩ := (startsWith_iff s p).1 e
  exact h r hr

theorem upTo_sound {e : Str} (he : e ≠ []) {s b r : Str} (h : upTo e s = some (b, r)) : s = b ++ (e ++ r) ∧ First e b := by
  induction s generalizing b r with
  | nil => rw [upTo, if_neg he] at h; cases h
  | cons c s ih =>
    rw [upTo] at h
    split at h
    · rename_i hp
      simp only [Option.some.injEq, Prod.mk.injEq] at h
      obtain ⟨rfl, rfl⟩ := h
      obtain ⟨t, ht⟩ := (startsWith_iff _ _).1 hp
      refine ⟨by rw [ht]; simp, ?_⟩
      intro a t e1
      have := congrArg List.length e1
      simp at this
      have : 0 < e.length := List.length_pos_iff.2 he
      omega
    · rename_i hp
      rw [Option.map_eq_some_iff] at h
      obtain ⟨⟨b', r'⟩, h1, h2⟩ := h
      simp only [Prod.mk.injEq] at h2
      obtain ⟨rfl, rfl⟩ := h2
      obtain ⟨h3, h4⟩ := ih h1
      refine ⟨by rw [h3]; rfl, ?_⟩
      intro a t e1
      cases a with
      | nil =>
        apply hp
        rw [startsWith_iff]
        obtain ⟨l, hl⟩ : ∃ l, e = e.dropLast ++ [l] := ⟨e.getLast he, (List.dropLast_concat_getLast he).symm⟩
        refine ⟨t ++ ([l] ++ r'), ?_⟩
        rw [h3]
        conv => lhs; rw [hl]
        have : c :: (b' ++ (e.dropLast ++ [l] ++ r')) = ((c :: b') ++ e.dropLast) ++ ([l] ++ r') := by simp
        rw [this, e1]
        simp
      | cons d a =>
        simp only [List.cons_append, List.cons.injEq] at e1
        exact h4 a t e1.2

theorem upTo_complete {e : Str} (he : e ≠ []) {b r : Str} (h : First e b) : upTo e (b ++ (e ++ r)) = some (b, r) := by
  induction b with
  | nil =>
    obtain ⟨c, e', rfl⟩ := List.exists_cons_of_ne_nil he
    rw [List.nil_append, List.cons_append, upTo, if_pos ((startsWith_iff (c :: (e' ++ r)) (c :: e')).2 ⟨r, rfl⟩)]
    simp
  | cons c b ih =>
    rw [List.cons_append, upTo]
    have hf : startsWith (c :: (b ++ (e ++ r))) e = false := by
      apply startsWith_false
      intro t e1
      obtain ⟨l, hl⟩ : ∃ l, e = e.dropLast ++ [l] := ⟨e.getLast he, (List.dropLast_concat_getLast he).symm⟩
      have e2 : (c :: b ++ e.dropLast) ++ ([l] ++ r) = e ++ t := by
        rw [← e1]
        conv => rhs; rw [hl]
        simp
      have h1 : e <+: (c :: b ++ e.dropLast) := by
        apply List.prefix_of_prefix_length_le (l₃ := e ++ t) (List.prefix_append _ _)
        · rw [← e2]; exact List.prefix_append _ _
        · simp; omega
      obtain ⟨u, hu⟩ := h1
      exact h [] u (by rw [List.nil_append, hu])
    rw [hf]
    have h' : First e b := by
      intro a t e1
      exact h (c :: a) t (by simp [e1])
    rw [if_neg (by simp), ih h']
    rfl

/-- `]]>` -/
theorem first_cdata (b : Str) : First c!"]]>" b ↔ Lacks c!"]]>" b := by
  constructor
  · rintro h a t rfl
    exact h a (t ++ c!"]]") (by simp)
  · intro h a t e
    -- the last character of the occurrence is not a bracket
    have e' : b ++ [']', ']'] = (a ++ c!"]]>") ++ t := by simpa using e
    rcases List.append_eq_append_iff.1 e' with ⟨u, h1, h2⟩ | ⟨u, h1, h2⟩
    · -- a ++ "]]>" = b ++ u, u ++ t = "]]"
      have h3 : '>' ∈ u ∨ u = [] := by
        rcases List.eq_nil_or_concat u with rfl | ⟨u', l, rfl⟩
        · exact Or.inr rfl
        · left
          have := congrArg List.getLast? h1
          simp at this
          subst this
          simp
      rcases h3 with h3 | rfl
      · have : '>' ∈ [']', ']'] := by rw [h2]; simp [h3]
        simp at this
      · exact h a [] (by simpa using h1.symm)
    · exact h a u (by rw [h1]; simp)

/-- `?>` -/
theorem first_pi (b : Str) : First c!"?>" b ↔ Lacks c!"?>" b := by
  constructor
  · rintro h a t rfl
    exact h a (t ++ c!"?") (by simp)
  · intro h a t e
    have e' : b ++ ['?'] = (a ++ c!"?>") ++ t := by simpa using e
    rcases List.append_eq_append_iff.1 e' with ⟨u, h1, h2⟩ | ⟨u, h1, h2⟩
    · have h3 : '>' ∈ u ∨ u = [] := by
        rcases List.eq_nil_or_concat u with rfl | ⟨u', l, rfl⟩
        · exact Or.inr rfl
        · left
          have := congrArg List.getLast? h1
          simp at this
          subst this
          simp
      rcases h3 with h3 | rfl
      · have : '>' ∈ ['?'] := by rw [h2]; simp [h3]
        simp at this
      · exact h a [] (by simpa using h1.symm)
    · exact h a u (by rw [h1]; simp)

/-- `--` -/
theorem first_comment (b : Str) : First c!"--" b ↔ Lacks c!"--" (b ++ ['-']) := Iff.rfl

end TTP.XmlText
