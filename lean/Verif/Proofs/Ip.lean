import Verif.Spec.Ip
import Verif.Model.Ip
import Verif.Proofs.PyStr
import Verif.Proofs.Net
/-! # Lemmas on the reading of address texts -/

namespace TTP
open Py Spec
namespace Ip

theorem isDigit_char (c : Char) (h : isDigit c = true) : digitVal c < 10 ∧ c = digitChar (digitVal c) := by
  unfold isDigit at h
  simp only [decide_eq_true_eq, Bool.and_eq_true] at h
  obtain ⟨h1, h2⟩ := h
  have h1' : 48 ≤ c.toNat := h1
  have h2' : c.toNat ≤ 57 := h2
  refine ⟨by unfold digitVal; omega, ?_⟩
  unfold digitChar digitVal
  have : 48 + (c.toNat - 48) = c.toNat := by omega
  rw [this, Char.ofNat_toNat]

theorem three : ∀ a < 10, ∀ b < 10, ∀ c < 10, a ≠ 0 → natStr (100 * a + 10 * b + c) = [digitChar a, digitChar b, digitChar c] := by
  decide +kernel

theorem two : ∀ b < 10, ∀ c < 10, b ≠ 0 → natStr (10 * b + c) = [digitChar b, digitChar c] := by decide +kernel

theorem one : ∀ c < 10, natStr c = [digitChar c] := by decide +kernel

theorem octet_nat : ∀ n < 256, octet? (natStr n) = some n := by decide +kernel

theorem octet_iff (s : Str) (n : Nat) : octet? s = some n ↔ n < 256 ∧ s = natStr n := by
  constructor
  · intro h
    unfold octet? at h
    split at h
    · cases h
    · rename_i hc
      injection h with h
      simp only [not_or, Bool.not_eq_true', Bool.not_eq_false] at hc
      obtain ⟨h1, h2, h3, h4, h5⟩ := hc
      refine ⟨by omega, ?_⟩
      subst h
      rw [List.all_eq_true] at h2
      match s, h1, h2, h3, h4 with
      | [c], _, h2, _, _ =>
        obtain ⟨p, q⟩ := isDigit_char c (h2 c (by simp))
        have : natOfDigits [c] = digitVal c := by simp [natOfDigits]
        rw [this, one _ p, ← q]
      | [b, c], _, h2, _, h4 =>
        obtain ⟨p, q⟩ := isDigit_char c (h2 c (by simp))
        obtain ⟨p', q'⟩ := isDigit_char b (h2 b (by simp))
        have : natOfDigits [b, c] = 10 * digitVal b + digitVal c := by simp [natOfDigits]
        have hb : digitVal b ≠ 0 := by
          intro e; rw [e] at q'; apply h4; rw [q']; exact ⟨by simp, rfl⟩
        rw [this, two _ p' _ p hb, ← q, ← q']
      | [a, b, c], _, h2, _, h4 =>
        obtain ⟨p, q⟩ := isDigit_char c (h2 c (by simp))
        obtain ⟨p', q'⟩ := isDigit_char b (h2 b (by simp))
        obtain ⟨p'', q''⟩ := isDigit_char a (h2 a (by simp))
        have : natOfDigits [a, b, c] = 100 * digitVal a + 10 * digitVal b + digitVal c := by simp [natOfDigits]; omega
        have hb : digitVal a ≠ 0 := by
          intro e; rw [e] at q''; apply h4; rw [q'']; exact ⟨by simp, rfl⟩
        rw [this, three _ p'' _ p' _ p hb, ← q, ← q', ← q'']
      | a :: b :: c :: d :: e, _, _, h3, _ => simp at h3
  · rintro ⟨h1, rfl⟩
    exact octet_nat n h1

theorem dot_no (n : Nat) : '.' ∉ natStr n := natStr_no n '.' (by decide)

theorem v4_iff (s : Str) (x : Nat) : v4? s = some x ↔ V4 s x := by
  unfold v4?
  constructor
  · intro h
    split at h
    · rename_i a b c d he
      simp only [Option.bind_eq_bind, Option.bind_eq_some_iff, Option.pure_def, Option.some.injEq, octet_iff] at h
      obtain ⟨na, ⟨ha, rfl⟩, nb, ⟨hb, rfl⟩, nc, ⟨hc, rfl⟩, nd, ⟨hd, rfl⟩, rfl⟩ := h
      refine ⟨by omega, ?_⟩
      have := join_splitC '.' s
      rw [he] at this
      rw [← this]
      unfold dotted octets
      have e1 : (((na * 256 + nb) * 256 + nc) * 256 + nd) / 2 ^ 24 % 256 = na := by omega
      have e2 : (((na * 256 + nb) * 256 + nc) * 256 + nd) / 2 ^ 16 % 256 = nb := by omega
      have e3 : (((na * 256 + nb) * 256 + nc) * 256 + nd) / 2 ^ 8 % 256 = nc := by omega
      have e4 : (((na * 256 + nb) * 256 + nc) * 256 + nd) % 256 = nd := by omega
      rw [e1, e2, e3, e4]; rfl
    · cases h
  · rintro ⟨h1, rfl⟩
    unfold dotted
    rw [splitC_join '.' _ (by simp [octets]) (by
      intro w hw
      obtain ⟨n, _, rfl⟩ := List.mem_map.1 hw
      exact dot_no n)]
    simp only [octets, List.map]
    have o : ∀ n < 256, octet? (natStr n) = some n := octet_nat
    rw [o _ (Nat.mod_lt _ (by decide)), o _ (Nat.mod_lt _ (by decide)), o _ (Nat.mod_lt _ (by decide)), o _ (Nat.mod_lt _ (by decide))]
    simp only [Option.bind_eq_bind, Option.bind_some, Option.pure_def, Option.some.injEq]
    omega

theorem prefix_iff (m : Nat) (s : Str) (p : Nat) : prefix? m s = some p ↔ DigitsOf s p ∧ p ≤ m := by
  unfold prefix? DigitsOf
  constructor
  · intro h
    split at h
    · cases h
    · rename_i hc
      injection h with h
      simp only [not_or, Bool.not_eq_true', Bool.not_eq_false] at hc
      exact ⟨⟨hc.1, hc.2.1, h⟩, by omega⟩
  · rintro ⟨⟨h1, h2, rfl⟩, h3⟩
    rw [if_neg]
    simp [h1, h2]; omega

theorem zeroBits_le (b n : Nat) : zeroBits b n ≤ b := by
  induction b generalizing n with
  | zero => simp [zeroBits]
  | succ b ih =>
    unfold zeroBits
    split
    · omega
    · have := ih (n / 2); omega

/-- the number of zero bits at the end -/
theorem zeroBits_dvd (b n : Nat) : 2 ^ zeroBits b n ∣ n := by
  induction b generalizing n with
  | zero => simp [zeroBits]
  | succ b ih =>
    unfold zeroBits
    split
    · simp
    · obtain ⟨k, hk⟩ := ih (n / 2)
      refine ⟨k, ?_⟩
      rw [Nat.pow_succ, Nat.mul_right_comm, ← hk]; omega

theorem zeroBits_max (b n k : Nat) (hk : k ≤ b) (h : 2 ^ k ∣ n) : k ≤ zeroBits b n := by
  induction b generalizing n k with
  | zero => simp at hk; omega
  | succ b ih =>
    cases k with
    | zero => omega
    | succ k =>
      unfold zeroBits
      obtain ⟨q, rfl⟩ := h
      have e : 2 ^ (k + 1) * q = 2 * (2 ^ k * q) := by rw [Nat.pow_succ]; ac_rfl
      rw [if_neg (by omega)]
      have := ih (2 ^ (k + 1) * q / 2) k (by omega) ⟨q, by omega⟩
      omega

theorem ofInt_iff (n p : Nat) : ofInt n = some p ↔ p ≤ 32 ∧ n = netmask p := by
  have hz := zeroBits_le 32 n
  have hd := zeroBits_dvd 32 n
  constructor
  · unfold ofInt netmask
    have hs : 32 - (32 - zeroBits 32 n) = zeroBits 32 n := by omega
    simp only [hs]
    intro h
    split at h
    · rename_i he
      injection h with h
      subst h
      refine ⟨by omega, ?_⟩
      rw [hs]
      have e1 : n / 2 ^ zeroBits 32 n * 2 ^ zeroBits 32 n = n := Nat.div_mul_cancel hd
      rw [he, Nat.sub_mul, ← Nat.pow_add] at e1
      have e3 : 32 - zeroBits 32 n + zeroBits 32 n = 32 := by omega
      rw [e3, Nat.one_mul] at e1
      exact e1.symm
    · cases h
  · rintro ⟨h1, rfl⟩
    have : ∀ p < 33, ofInt (netmask p) = some p := by decide +kernel
    exact this p (by omega)

theorem host_none : ∀ p < 32, 0 < p → ofInt (2 ^ (32 - p) - 1) = none ∧ ofInt (2 ^ 32 - 1 - (2 ^ (32 - p) - 1)) = some p := by decide +kernel

theorem host_of : ∀ p < 33, 2 ^ 32 - 1 - (2 ^ 32 - 2 ^ (32 - p)) = 2 ^ (32 - p) - 1 := by decide +kernel

theorem maskText_iff (m : Str) (p : Nat) :
    maskText? m = some p ↔ p ≤ 32 ∧ (V4 m (netmask p) ∨ (0 < p ∧ p < 32 ∧ V4 m (2 ^ (32 - p) - 1))) := by
  unfold maskText?
  constructor
  · intro h
    simp only [Option.bind_eq_bind, Option.bind_eq_some_iff, v4_iff] at h
    obtain ⟨n, hn, h⟩ := h
    rw [Option.or_eq_some_iff] at h
    rcases h with h | ⟨h, h'⟩
    · rw [ofInt_iff] at h
      obtain ⟨h, rfl⟩ := h
      exact ⟨h, Or.inl hn⟩
    · rw [ofInt_iff] at h'
      obtain ⟨h1, h2⟩ := h'
      have hx := hn.1
      have e : n = 2 ^ (32 - p) - 1 := by
        have := host_of p (by omega)
        unfold netmask at h2
        rw [← h2] at this
        omega
      refine ⟨h1, Or.inr ⟨?_, ?_, e ▸ hn⟩⟩
      · rcases Nat.eq_zero_or_pos p with rfl | hp
        · rw [e] at h; revert h; decide +kernel
        · exact hp
      · rcases Nat.lt_or_ge p 32 with hp | hp
        · exact hp
        · have : p = 32 := by omega
          subst this
          rw [e] at h; revert h; decide +kernel
  · rintro ⟨h1, h2⟩
    simp only [Option.bind_eq_bind, Option.bind_eq_some_iff, v4_iff]
    rcases h2 with h2 | ⟨h2, h3, h4⟩
    · exact ⟨_, h2, by rw [(ofInt_iff _ p).2 ⟨h1, rfl⟩]; rfl⟩
    · exact ⟨_, h4, by rw [(host_none p h3 h2).1, (host_none p h3 h2).2]; rfl⟩

theorem V4_chars (s : Str) (x : Nat) (h : V4 s x) : ∀ c ∈ s, c = '.' ∨ isDigit c = true := by
  intro c hc
  rw [h.2] at hc
  rcases mem_join _ _ _ hc with h | ⟨w, hw, h⟩
  · exact Or.inl (by simpa using h)
  · obtain ⟨n, _, rfl⟩ := List.mem_map.1 hw
    have := natStr_digits n
    rw [List.all_eq_true] at this
    exact Or.inr (this c h)

theorem V4_dot (s : Str) (x : Nat) (h : V4 s x) : '.' ∈ s := by
  rw [h.2]
  simp [dotted, octets, join]

theorem DigitsOf_not_V4 (s : Str) (p x : Nat) (h : DigitsOf s p) : ¬ V4 s x := by
  intro h'
  have := h.2.1
  rw [List.all_eq_true] at this
  exact absurd (this _ (V4_dot s x h')) (by decide)

theorem mask4_iff (m : Str) (p : Nat) : mask4? m = some p ↔ V4Mask m p := by
  unfold mask4? V4Mask
  rw [Option.or_eq_some_iff, prefix_iff, maskText_iff]
  constructor
  · rintro (⟨h1, h2⟩ | ⟨_, h1, h2⟩)
    · exact ⟨h2, Or.inl h1⟩
    · exact ⟨h1, Or.inr h2⟩
  · rintro ⟨h1, h2 | h2⟩
    · exact Or.inl ⟨h2, h1⟩
    · refine Or.inr ⟨?_, h1, h2⟩
      cases h : prefix? 32 m with
      | none => rfl
      | some q =>
        rw [prefix_iff] at h
        rcases h2 with h2 | ⟨_, _, h2⟩
        · exact absurd h2 (DigitsOf_not_V4 _ _ _ h.1)
        · exact absurd h2 (DigitsOf_not_V4 _ _ _ h.1)

/-! ## parts -/

theorem two_parts (sep : Char) (s a m : Str) : splitC sep s = [a, m] ↔ s = a ++ sep :: m ∧ sep ∉ a ∧ sep ∉ m := by
  constructor
  · intro h
    have hj := join_splitC sep s
    have hn := splitC_no_sep sep s
    rw [h] at hj hn
    exact ⟨by rw [← hj]; simp [join], hn a (by simp), hn m (by simp)⟩
  · rintro ⟨rfl, h1, h2⟩
    rw [splitC_append sep a h1, splitC_self sep m h2]

theorem one_part (sep : Char) (s a : Str) : splitC sep s = [a] ↔ s = a ∧ sep ∉ s := by
  constructor
  · intro h
    have hj := join_splitC sep s
    have hn := splitC_no_sep sep s
    rw [h] at hj hn
    have : s = a := by rw [← hj]; simp [join]
    exact ⟨this, this ▸ hn a (by simp)⟩
  · rintro ⟨rfl, h1⟩
    exact splitC_self sep _ h1

/-- spaces become slashes -/
def slashed (s : Str) : Str := s.map (fun c => if c = ' ' then '/' else c)

theorem slashed_id (s : Str) (h : ' ' ∉ s) : slashed s = s := by
  unfold slashed
  induction s with
  | nil => rfl
  | cons c cs ih =>
    simp only [List.mem_cons, not_or] at h
    rw [List.map_cons, ih h.2, if_neg (fun e => h.1 e.symm)]

theorem slashed_no (s : Str) : '/' ∉ slashed s ↔ '/' ∉ s ∧ ' ' ∉ s := by
  unfold slashed
  induction s with
  | nil => simp
  | cons c cs ih =>
    simp only [List.map_cons, List.mem_cons, not_or]
    rw [ih]
    by_cases h : c = ' '
    · subst h; simp
    · simp only [h, if_false]
      constructor
      · rintro ⟨h1, h2, h3⟩; exact ⟨⟨h1, h2⟩, fun e => h e.symm, h3⟩
      · rintro ⟨⟨h1, h2⟩, _, h3⟩; exact ⟨h1, h2, h3⟩

theorem slashed_parts (s a m : Str) : splitC '/' (slashed s) = [a, m] ↔
    ∃ c, (c = '/' ∨ c = ' ') ∧ s = a ++ c :: m ∧ ('/' ∉ a ∧ ' ' ∉ a) ∧ ('/' ∉ m ∧ ' ' ∉ m) := by
  rw [two_parts]
  constructor
  · rintro ⟨h, ha, hm⟩
    have hl : slashed s = s.map (fun c => if c = ' ' then '/' else c) := rfl
    rw [hl, List.map_eq_append_iff] at h
    obtain ⟨a', r, rfl, rfl, hr⟩ := h
    rw [List.map_eq_cons_iff] at hr
    obtain ⟨c, m', rfl, hc, rfl⟩ := hr
    have ha' := (slashed_no a').1 ha
    have hm' := (slashed_no m').1 hm
    refine ⟨c, ?_, ?_, ?_, ?_⟩
    · split at hc
      · rename_i e; exact Or.inr e
      · exact Or.inl hc
    · have e1 := slashed_id a' ha'.2
      have e2 := slashed_id m' hm'.2
      unfold slashed at e1 e2
      rw [e1, e2]
    · have e1 := slashed_id a' ha'.2
      unfold slashed at e1
      rw [e1]; exact ha'
    · have e1 := slashed_id m' hm'.2
      unfold slashed at e1
      rw [e1]; exact hm'
  · rintro ⟨c, hc, rfl, ha, hm⟩
    refine ⟨?_, ha.1, hm.1⟩
    unfold slashed
    rw [List.map_append, List.map_cons]
    have e1 := slashed_id a ha.2
    have e2 := slashed_id m hm.2
    unfold slashed at e1 e2
    rw [e1, e2]
    rcases hc with rfl | rfl <;> simp

theorem iface4_iff (s : Str) (x p : Nat) : iface4? s = some (x, p) ↔
    ('/' ∉ s ∧ V4 s x ∧ p = 32) ∨ ∃ a m, splitC '/' s = [a, m] ∧ V4 a x ∧ V4Mask m p := by
  unfold iface4?
  constructor
  · intro h
    split at h
    · rename_i a he
      obtain ⟨rfl, hn⟩ := (one_part _ _ _).1 he
      simp only [Option.bind_eq_bind, Option.bind_eq_some_iff, v4_iff, Option.pure_def, Option.some.injEq, Prod.mk.injEq] at h
      obtain ⟨y, h, rfl, rfl⟩ := h
      exact Or.inl ⟨hn, h, rfl⟩
    · rename_i a m he
      simp only [Option.bind_eq_bind, Option.bind_eq_some_iff, v4_iff, mask4_iff, Option.pure_def, Option.some.injEq, Prod.mk.injEq] at h
      obtain ⟨y, h, q, h', rfl, rfl⟩ := h
      exact Or.inr ⟨a, m, he, h, h'⟩
    · cases h
  · rintro (⟨h1, h2, rfl⟩ | ⟨a, m, he, h1, h2⟩)
    · rw [(one_part '/' s s).2 ⟨rfl, h1⟩]
      simp only [(v4_iff s x).2 h2]; rfl
    · rw [he]
      simp only [(v4_iff a x).2 h1, (mask4_iff m p).2 h2]; rfl

theorem iface6_iff (ip6 : Str → Option Nat) (s : Str) (x p : Nat) : iface6? ip6 s = some (x, p) ↔
    ('/' ∉ s ∧ ip6 s = some x ∧ p = 128) ∨ ∃ a m, splitC '/' s = [a, m] ∧ ip6 a = some x ∧ DigitsOf m p ∧ p ≤ 128 := by
  unfold iface6?
  constructor
  · intro h
    split at h
    · rename_i a he
      obtain ⟨rfl, hn⟩ := (one_part _ _ _).1 he
      simp only [Option.bind_eq_bind, Option.bind_eq_some_iff, Option.pure_def, Option.some.injEq, Prod.mk.injEq] at h
      obtain ⟨y, h, rfl, rfl⟩ := h
      exact Or.inl ⟨hn, h, rfl⟩
    · rename_i a m he
      simp only [Option.bind_eq_bind, Option.bind_eq_some_iff, prefix_iff, Option.pure_def, Option.some.injEq, Prod.mk.injEq] at h
      obtain ⟨y, h, q, h', rfl, rfl⟩ := h
      exact Or.inr ⟨a, m, he, h, h'⟩
    · cases h
  · rintro (⟨h1, h2, rfl⟩ | ⟨a, m, he, h1, h2⟩)
    · rw [(one_part '/' s s).2 ⟨rfl, h1⟩]
      simp only [h2]; rfl
    · rw [he]
      simp only [h1, (prefix_iff 128 m p).2 h2]; rfl

theorem V4_no (s : Str) (x : Nat) (h : V4 s x) : '/' ∉ s ∧ ' ' ∉ s := by
  have := V4_chars s x h
  exact ⟨fun e => by have := this _ e; revert this; decide, fun e => by have := this _ e; revert this; decide⟩

theorem DigitsOf_no (s : Str) (x : Nat) (h : DigitsOf s x) : '/' ∉ s ∧ ' ' ∉ s := by
  have := h.2.1
  rw [List.all_eq_true] at this
  exact ⟨fun e => by have := this _ e; revert this; decide, fun e => by have := this _ e; revert this; decide⟩

theorem V4Mask_no (s : Str) (x : Nat) (h : V4Mask s x) : '/' ∉ s ∧ ' ' ∉ s := by
  rcases h.2 with h | h | ⟨_, _, h⟩
  · exact DigitsOf_no _ _ h
  · exact V4_no _ _ h
  · exact V4_no _ _ h

/-- address and mask with a slash -/
theorem slash4 (s : Str) (x p : Nat) : (∃ a m, splitC '/' s = [a, m] ∧ V4 a x ∧ V4Mask m p) ↔ V4With ['/'] s x p := by
  constructor
  · rintro ⟨a, m, h, h1, h2⟩
    exact ⟨a, m, '/', by simp, ((two_parts _ _ _ _).1 h).1, h1, h2⟩
  · rintro ⟨a, m, c, hc, rfl, h1, h2⟩
    simp only [List.mem_singleton] at hc
    subst hc
    exact ⟨a, m, (two_parts _ _ _ _).2 ⟨rfl, (V4_no _ _ h1).1, (V4Mask_no _ _ h2).1⟩, h1, h2⟩

theorem space4 (s : Str) (x p : Nat) : (∃ a m, splitC '/' (slashed s) = [a, m] ∧ V4 a x ∧ V4Mask m p) ↔ V4With ['/', ' '] s x p := by
  constructor
  · rintro ⟨a, m, h, h1, h2⟩
    obtain ⟨c, hc, rfl, _, _⟩ := (slashed_parts _ _ _).1 h
    exact ⟨a, m, c, by simpa using hc, rfl, h1, h2⟩
  · rintro ⟨a, m, c, hc, rfl, h1, h2⟩
    exact ⟨a, m, (slashed_parts _ _ _).2 ⟨c, by simpa using hc, rfl, V4_no _ _ h1, V4Mask_no _ _ h2⟩, h1, h2⟩

theorem slash6 (ip6 : Str → Option Nat) (s : Str) (x p : Nat) :
    (∃ a m, splitC '/' s = [a, m] ∧ ip6 a = some x ∧ DigitsOf m p ∧ p ≤ 128) ↔ V6With ip6 ['/'] s x p := by
  constructor
  · rintro ⟨a, m, h, h1, h2⟩
    obtain ⟨e, ha, _⟩ := (two_parts _ _ _ _).1 h
    exact ⟨a, m, '/', by simp, e, by simpa using ha, h1, h2⟩
  · rintro ⟨a, m, c, hc, rfl, ha, h1, h2⟩
    simp only [List.mem_singleton] at hc
    subst hc
    exact ⟨a, m, (two_parts _ _ _ _).2 ⟨rfl, ha _ (by simp), (DigitsOf_no _ _ h2.1).1⟩, h1, h2⟩

theorem space6 (ip6 : Str → Option Nat) (s : Str) (x p : Nat) :
    (∃ a m, splitC '/' (slashed s) = [a, m] ∧ ip6 a = some x ∧ DigitsOf m p ∧ p ≤ 128) ↔ V6With ip6 ['/', ' '] s x p := by
  constructor
  · rintro ⟨a, m, h, h1, h2⟩
    obtain ⟨c, hc, rfl, ha, _⟩ := (slashed_parts _ _ _).1 h
    exact ⟨a, m, c, by simpa using hc, rfl, by simpa using ha, h1, h2⟩
  · rintro ⟨a, m, c, hc, rfl, ha, h1, h2⟩
    exact ⟨a, m, (slashed_parts _ _ _).2 ⟨c, by simpa using hc, rfl, ⟨ha _ (by simp), ha _ (by simp)⟩, DigitsOf_no _ _ h2.1⟩, h1, h2⟩

/-- the block of what `to_ip` gives -/
def dataBlock : Net.Data → Block
  | .addr v x => ⟨v, x, 0⟩
  | .iface v x p => ⟨v, x, Net.width v - p⟩
  | .other => ⟨0, 0, 0⟩

theorem has_sep (s : Str) (h : '/' ∈ s ∨ ' ' ∈ s) : '/' ∈ slashed s := by
  rcases Classical.em ('/' ∈ slashed s) with h' | h'
  · exact h'
  · have := (slashed_no s).1 h'
    rcases h with h | h
    · exact absurd h this.1
    · exact absurd h this.2

/-- version 4 data -/
def Means4 (s : Str) (d : Net.Data) : Prop := (∃ x, V4 s x ∧ d = .addr 4 x) ∨ ∃ x p, V4With ['/', ' '] s x p ∧ d = .iface 4 x p

/-- version 6 data -/
def Means6 (ip6 : Str → Option Nat) (seps : List Char) (s : Str) (d : Net.Data) : Prop :=
  (∃ x, (∀ c ∈ seps, c ∉ s) ∧ ip6 s = some x ∧ d = .addr 6 x) ∨ ∃ x p, V6With ip6 seps s x p ∧ d = .iface 6 x p

theorem With4_sep (seps : List Char) (s : Str) (x p : Nat) (h : V4With seps s x p) : ∃ c ∈ seps, c ∈ s := by
  obtain ⟨a, m, c, hc, rfl, _⟩ := h
  exact ⟨c, hc, by simp⟩

theorem With6_sep (ip6 : Str → Option Nat) (seps : List Char) (s : Str) (x p : Nat) (h : V6With ip6 seps s x p) : ∃ c ∈ seps, c ∈ s := by
  obtain ⟨a, m, c, hc, rfl, _⟩ := h
  exact ⟨c, hc, by simp⟩

theorem map_iface (v : Nat) (o : Option (Nat × Nat)) (d : Net.Data) : o.map (ifaceData v) = some d ↔ ∃ x p, o = some (x, p) ∧ d = .iface v x p := by
  constructor
  · intro h
    rw [Option.map_eq_some_iff] at h
    obtain ⟨⟨x, p⟩, h, rfl⟩ := h
    exact ⟨x, p, h, rfl⟩
  · rintro ⟨x, p, rfl, rfl⟩; rfl

theorem read4 (s : Str) (d : Net.Data) :
    (if '/' ∈ s ∨ ' ' ∈ s then (iface4? (slashed s)).map (ifaceData 4) else (v4? s).map (.addr 4)) = some d ↔ Means4 s d := by
  unfold Means4
  split
  · rename_i hs
    have hn : ¬ ∃ x, V4 s x ∧ d = .addr 4 x := by
      rintro ⟨x, h, _⟩
      have := V4_no s x h
      rcases hs with hs | hs
      · exact this.1 hs
      · exact this.2 hs
    have hsl := has_sep s hs
    rw [map_iface]
    constructor
    · rintro ⟨x, p, h, rfl⟩
      rw [iface4_iff] at h
      rcases h with h | h
      · exact absurd hsl h.1
      · exact Or.inr ⟨x, p, (space4 _ _ _).1 h, rfl⟩
    · rintro (h | ⟨x, p, h, rfl⟩)
      · exact absurd h hn
      · exact ⟨x, p, (iface4_iff _ _ _).2 (Or.inr ((space4 _ _ _).2 h)), rfl⟩
  · rename_i hs
    rw [Option.map_eq_some_iff]
    constructor
    · rintro ⟨x, h, rfl⟩
      exact Or.inl ⟨x, (v4_iff _ _).1 h, rfl⟩
    · rintro (⟨x, h, rfl⟩ | ⟨x, p, h, rfl⟩)
      · exact ⟨x, (v4_iff _ _).2 h, rfl⟩
      · obtain ⟨c, hc, hm⟩ := With4_sep _ _ _ _ h
        exfalso
        simp only [List.mem_cons, List.not_mem_nil, or_false] at hc
        rcases hc with rfl | rfl
        · exact hs (Or.inl hm)
        · exact hs (Or.inr hm)

theorem read6 (ip6 : Str → Option Nat) (s : Str) (d : Net.Data) :
    (if '/' ∈ s then (iface6? ip6 s).map (ifaceData 6) else (ip6 s).map (.addr 6)) = some d ↔ Means6 ip6 ['/'] s d := by
  unfold Means6
  split
  · rename_i hs
    rw [map_iface]
    constructor
    · rintro ⟨x, p, h, rfl⟩
      rw [iface6_iff] at h
      rcases h with h | h
      · exact absurd hs h.1
      · exact Or.inr ⟨x, p, (slash6 _ _ _ _).1 h, rfl⟩
    · rintro (⟨x, h, _⟩ | ⟨x, p, h, rfl⟩)
      · exact absurd hs (h _ (by simp))
      · exact ⟨x, p, (iface6_iff _ _ _ _).2 (Or.inr ((slash6 _ _ _ _).2 h)), rfl⟩
  · rename_i hs
    rw [Option.map_eq_some_iff]
    constructor
    · rintro ⟨x, h, rfl⟩
      exact Or.inl ⟨x, by simpa using hs, h, rfl⟩
    · rintro (⟨x, _, h, rfl⟩ | ⟨x, p, h, rfl⟩)
      · exact ⟨x, h, rfl⟩
      · obtain ⟨c, hc, hm⟩ := With6_sep _ _ _ _ _ h
        simp only [List.mem_singleton] at hc
        subst hc; exact absurd hm hs

theorem read6s (ip6 : Str → Option Nat) (s : Str) (d : Net.Data) :
    (if '/' ∈ s ∨ ' ' ∈ s then (iface6? ip6 (slashed s)).map (ifaceData 6) else (ip6 s).map (.addr 6)) = some d ↔
      Means6 ip6 ['/', ' '] s d := by
  unfold Means6
  split
  · rename_i hs
    have hsl := has_sep s hs
    rw [map_iface]
    constructor
    · rintro ⟨x, p, h, rfl⟩
      rw [iface6_iff] at h
      rcases h with h | h
      · exact absurd hsl h.1
      · exact Or.inr ⟨x, p, (space6 _ _ _ _).1 h, rfl⟩
    · rintro (⟨x, h, _⟩ | ⟨x, p, h, rfl⟩)
      · rcases hs with hs | hs
        · exact absurd hs (h _ (by simp))
        · exact absurd hs (h _ (by simp))
      · exact ⟨x, p, (iface6_iff _ _ _ _).2 (Or.inr ((space6 _ _ _ _).2 h)), rfl⟩
  · rename_i hs
    rw [Option.map_eq_some_iff]
    constructor
    · rintro ⟨x, h, rfl⟩
      exact Or.inl ⟨x, by simpa [not_or] using hs, h, rfl⟩
    · rintro (⟨x, _, h, rfl⟩ | ⟨x, p, h, rfl⟩)
      · exact ⟨x, h, rfl⟩
      · obtain ⟨c, hc, hm⟩ := With6_sep _ _ _ _ _ h
        exfalso
        simp only [List.mem_cons, List.not_mem_nil, or_false] at hc
        rcases hc with rfl | rfl
        · exact hs (Or.inl hm)
        · exact hs (Or.inr hm)

theorem toIp_4 (ip6 : Str → Option Nat) (kinds : List Str) (s : Str) (d : Net.Data) (h : c!"ipv4" ∈ kinds) :
    toIp ip6 kinds s = some d ↔ Means4 s d := by
  rw [← read4]; unfold toIp; rw [if_pos h]; rfl

theorem toIp_6 (ip6 : Str → Option Nat) (kinds : List Str) (s : Str) (d : Net.Data) (h : c!"ipv4" ∉ kinds) (h' : c!"ipv6" ∈ kinds) :
    toIp ip6 kinds s = some d ↔ Means6 ip6 ['/'] s d := by
  rw [← read6]; unfold toIp; rw [if_neg h, if_pos h']

/-- version 4 is tried first -/
theorem toIp_any (ip6 : Str → Option Nat) (kinds : List Str) (s : Str) (d : Net.Data) (h : c!"ipv4" ∉ kinds) (h' : c!"ipv6" ∉ kinds) :
    toIp ip6 kinds s = some d ↔ Means4 s d ∨ ((∀ e, ¬ Means4 s e) ∧ Means6 ip6 ['/', ' '] s d) := by
  have e : toIp ip6 kinds s =
      (if '/' ∈ s ∨ ' ' ∈ s then (iface4? (slashed s)).map (ifaceData 4) else (v4? s).map (.addr 4)).or
      (if '/' ∈ s ∨ ' ' ∈ s then (iface6? ip6 (slashed s)).map (ifaceData 6) else (ip6 s).map (.addr 6)) := by
    unfold toIp; rw [if_neg h, if_neg h']
    split <;> rfl
  rw [e, Option.or_eq_some_iff, read4, read6s]
  have : (if '/' ∈ s ∨ ' ' ∈ s then (iface4? (slashed s)).map (ifaceData 4) else (v4? s).map (.addr 4)) = none ↔ ∀ e, ¬ Means4 s e := by
    constructor
    · intro h e he
      rw [(read4 s e).2 he] at h; cases h
    · intro h
      rcases hh : (if '/' ∈ s ∨ ' ' ∈ s then (iface4? (slashed s)).map (ifaceData 4) else (v4? s).map (.addr 4)) with _ | d
      · rfl
      · exact absurd ((read4 s d).1 hh) (h d)
  rw [this]

/-- no text is read in both versions -/
theorem Means_apart (ip6 : Str → Option Nat) (hr : Reads6 ip6) (s : Str) (d e : Net.Data) (h : Means6 ip6 ['/', ' '] s d) : ¬ Means4 s e := by
  rintro (⟨x, h4, _⟩ | ⟨x, p, h4, _⟩)
  · rcases h with ⟨y, _, h6, _⟩ | ⟨y, q, h6, _⟩
    · rw [hr.not4 s x h4] at h6; cases h6
    · obtain ⟨c, hc, hm⟩ := With6_sep _ _ _ _ _ h6
      simp only [List.mem_cons, List.not_mem_nil, or_false] at hc
      rcases hc with rfl | rfl
      · exact (V4_no s x h4).1 hm
      · exact (V4_no s x h4).2 hm
  · rcases h with ⟨y, hn, h6, _⟩ | ⟨y, q, h6, _⟩
    · obtain ⟨c, hc, hm⟩ := With4_sep _ _ _ _ h4
      exact hn c hc hm
    · obtain ⟨a, m, h4, ha, _⟩ := (space4 s x p).2 h4
      obtain ⟨a', m', h6, h6', _⟩ := (space6 ip6 s y q).2 h6
      rw [h4] at h6
      injection h6 with h6 _
      subst h6
      rw [hr.not4 a x ha] at h6'; cases h6'

theorem toIp_block (ip6 : Str → Option Nat) (hr : Reads6 ip6) (s : Str) (b : Block) (h : Addresses ip6 ['/', ' '] s b) :
    ∃ d, toIp ip6 [] s = some d ∧ dataBlock d = b ∧ d ≠ .other := by
  have key := fun d => toIp_any ip6 [] s d (by simp) (by simp)
  cases h with
  | v4 x h => exact ⟨_, (key _).2 (Or.inl (Or.inl ⟨x, h, rfl⟩)), rfl, by simp⟩
  | v4m x p h => exact ⟨_, (key _).2 (Or.inl (Or.inr ⟨x, p, h, rfl⟩)), rfl, by simp⟩
  | v6 x h1 h2 =>
    have : Means6 ip6 ['/', ' '] s (.addr 6 x) := Or.inl ⟨x, h1, h2, rfl⟩
    exact ⟨_, (key _).2 (Or.inr ⟨fun e he => Means_apart ip6 hr s _ e this he, this⟩), rfl, by simp⟩
  | v6m x p h =>
    have : Means6 ip6 ['/', ' '] s (.iface 6 x p) := Or.inr ⟨x, p, h, rfl⟩
    exact ⟨_, (key _).2 (Or.inr ⟨fun e he => Means_apart ip6 hr s _ e this he, this⟩), rfl, by simp⟩

theorem Means4_block (ip6 : Str → Option Nat) (s : Str) (d : Net.Data) (h : Means4 s d) : Addresses ip6 ['/', ' '] s (dataBlock d) := by
  rcases h with ⟨x, h, rfl⟩ | ⟨x, p, h, rfl⟩
  · exact .v4 x h
  · exact .v4m x p h

theorem Means6_block (ip6 : Str → Option Nat) (seps : List Char) (s : Str) (d : Net.Data) (h : Means6 ip6 seps s d) : Addresses ip6 seps s (dataBlock d) := by
  rcases h with ⟨x, h, h', rfl⟩ | ⟨x, p, h, rfl⟩
  · exact .v6 x h h'
  · exact .v6m x p h

theorem toIp_none (ip6 : Str → Option Nat) (s : Str) (h : ¬ ∃ b, Addresses ip6 ['/', ' '] s b) : toIp ip6 [] s = none := by
  cases hh : toIp ip6 [] s with
  | none => rfl
  | some d =>
    exfalso
    rcases (toIp_any ip6 [] s d (by simp) (by simp)).1 hh with hm | ⟨_, hm⟩
    · exact h ⟨_, Means4_block ip6 s d hm⟩
    · exact h ⟨_, Means6_block ip6 _ s d hm⟩

/-! ## networks -/

theorem strictNet_some (v x p : Nat) (hp : p ≤ Net.width v) (hx : x < 2 ^ Net.width v) :
    strictNet v (x, p) = if 2 ^ (Net.width v - p) ∣ x then some ⟨v, x, p⟩ else none := by
  unfold strictNet
  simp only
  rw [Net.land_mask v p x hp hx]
  have : x / 2 ^ (Net.width v - p) * 2 ^ (Net.width v - p) = x ↔ 2 ^ (Net.width v - p) ∣ x :=
    ⟨fun h => ⟨_, by rw [Nat.mul_comm]; exact h.symm⟩, fun h => Nat.div_mul_cancel h⟩
  simp only [this]

theorem slash_apart (ip6 : Str → Option Nat) (hr : Reads6 ip6) (s : Str) (x p : Nat) (h : iface6? ip6 s = some (x, p)) : iface4? s = none := by
  cases hh : iface4? s with
  | none => rfl
  | some q =>
    exfalso
    obtain ⟨y, q⟩ := q
    rw [iface4_iff] at hh
    rw [iface6_iff] at h
    rcases hh with ⟨h1, h2, _⟩ | ⟨a, m, he, h2, _⟩
    · rcases h with ⟨_, h, _⟩ | ⟨a, m, h, _⟩
      · rw [hr.not4 s y h2] at h; cases h
      · rw [((two_parts _ _ _ _).1 h).1] at h1; simp at h1
    · rcases h with ⟨h1, _⟩ | ⟨a', m', h, h', _⟩
      · rw [((two_parts _ _ _ _).1 he).1] at h1; simp at h1
      · rw [he] at h
        injection h with h _
        subst h
        rw [hr.not4 a y h2] at h'; cases h'

theorem toNet_block (ip6 : Str → Option Nat) (hr : Reads6 ip6) (s : Str) (b : Block) (h : Addresses ip6 ['/'] s b) :
    ∃ p, p ≤ Net.width b.version ∧ b.k = Net.width b.version - p ∧ b.base < 2 ^ Net.width b.version ∧
      toNet ip6 s = if 2 ^ b.k ∣ b.base then some ⟨b.version, b.base, p⟩ else none := by
  cases h with
  | v4 x h =>
    refine ⟨32, by simp [Net.width], by simp [Net.width], h.1, ?_⟩
    unfold toNet
    rw [(iface4_iff s x 32).2 (Or.inl ⟨(V4_no s x h).1, h, rfl⟩)]
    exact strictNet_some 4 x 32 (by simp [Net.width]) h.1
  | v4m x p h =>
    obtain ⟨a, m, hs, ha, hm⟩ := (slash4 s x p).2 h
    refine ⟨p, hm.1, rfl, ha.1, ?_⟩
    unfold toNet
    rw [(iface4_iff s x p).2 (Or.inr ⟨a, m, hs, ha, hm⟩)]
    exact strictNet_some 4 x p hm.1 ha.1
  | v6 x h1 h2 =>
    have hx := hr.range _ _ h2
    refine ⟨128, by simp [Net.width], by simp [Net.width], hx, ?_⟩
    have h6 := (iface6_iff ip6 s x 128).2 (Or.inl ⟨h1 _ (by simp), h2, rfl⟩)
    unfold toNet
    rw [slash_apart ip6 hr s x 128 h6, h6]
    exact strictNet_some 6 x 128 (by simp [Net.width]) hx
  | v6m x p h =>
    obtain ⟨a, m, hs, ha, hm, hp⟩ := (slash6 ip6 s x p).2 h
    have hx := hr.range _ _ ha
    refine ⟨p, hp, rfl, hx, ?_⟩
    have h6 := (iface6_iff ip6 s x p).2 (Or.inr ⟨a, m, hs, ha, hm, hp⟩)
    unfold toNet
    rw [slash_apart ip6 hr s x p h6, h6]
    exact strictNet_some 6 x p hp hx

theorem toNet_none (ip6 : Str → Option Nat) (s : Str) (h : ¬ ∃ b, Addresses ip6 ['/'] s b) : toNet ip6 s = none := by
  unfold toNet
  cases h4 : iface4? s with
  | some p =>
    exfalso
    obtain ⟨x, p⟩ := p
    rw [iface4_iff] at h4
    rcases h4 with ⟨_, h1, _⟩ | h1
    · exact h ⟨_, .v4 x h1⟩
    · exact h ⟨_, .v4m x p ((slash4 s x p).1 h1)⟩
  | none =>
    cases h6 : iface6? ip6 s with
    | none => rfl
    | some p =>
      exfalso
      obtain ⟨x, p⟩ := p
      rw [iface6_iff] at h6
      rcases h6 with ⟨h0, h1, _⟩ | h1
      · exact h ⟨_, .v6 x (by simpa using h0) h1⟩
      · exact h ⟨_, .v6m x p ((slash6 ip6 s x p).1 h1)⟩

/-- the check: the two blocks have an address in common -/
theorem cidr_iff (ip6 : Str → Option Nat) (hr : Reads6 ip6) (s : Str) (b : Block) (d : Net.Data) (h : toIp ip6 [] s = some d)
    (hb : dataBlock d = b) (net : Net.Network) (hn : net.Ok) :
    ∃ r, Net.cidrMatch d net = some r ∧ (r = true ↔ ∃ v x, x < 2 ^ Net.width v ∧ b.Mem v x ∧ net.block.Mem v x) := by
  have go : ∀ v x p, p ≤ Net.width v → x < 2 ^ Net.width v → b = ⟨v, x, Net.width v - p⟩ →
      ((Net.ifaceNet v x p).overlaps net = true ↔ ∃ v x, x < 2 ^ Net.width v ∧ b.Mem v x ∧ net.block.Mem v x) := by
    intro v x p hp hx hb
    rw [Net.overlaps_iff _ _ (Net.ifaceNet_ok v x p hp hx) hn]
    subst hb
    constructor
    · rintro ⟨w, y, h1, h2, h3⟩; exact ⟨w, y, h1, (Net.iface_mem v x p w y hp hx).1 h2, h3⟩
    · rintro ⟨w, y, h1, h2, h3⟩; exact ⟨w, y, h1, (Net.iface_mem v x p w y hp hx).2 h2, h3⟩
  have hs : (∃ x, x < 2 ^ 32 ∧ d = .addr 4 x) ∨ (∃ x p, x < 2 ^ 32 ∧ p ≤ 32 ∧ d = .iface 4 x p) ∨
      (∃ x, x < 2 ^ 128 ∧ d = .addr 6 x) ∨ (∃ x p, x < 2 ^ 128 ∧ p ≤ 128 ∧ d = .iface 6 x p) := by
    rcases (toIp_any ip6 [] s d (by simp) (by simp)).1 h with (⟨x, g, rfl⟩ | ⟨x, p, g, rfl⟩) | ⟨_, ⟨x, _, g, rfl⟩ | ⟨x, p, g, rfl⟩⟩
    · exact Or.inl ⟨x, g.1, rfl⟩
    · obtain ⟨_, _, _, _, _, g, g'⟩ := g
      exact Or.inr (Or.inl ⟨x, p, g.1, g'.1, rfl⟩)
    · exact Or.inr (Or.inr (Or.inl ⟨x, hr.range _ _ g, rfl⟩))
    · obtain ⟨_, _, _, _, _, _, g, _, g'⟩ := g
      exact Or.inr (Or.inr (Or.inr ⟨x, p, hr.range _ _ g, g', rfl⟩))
  rcases hs with ⟨x, hx, rfl⟩ | ⟨x, p, hx, hp, rfl⟩ | ⟨x, hx, rfl⟩ | ⟨x, p, hx, hp, rfl⟩
  · exact ⟨_, rfl, go 4 x 32 (by simp [Net.width]) hx (by rw [← hb]; rfl)⟩
  · exact ⟨_, rfl, go 4 x p hp hx (by rw [← hb]; rfl)⟩
  · exact ⟨_, rfl, go 6 x 128 (by simp [Net.width]) hx (by rw [← hb]; rfl)⟩
  · exact ⟨_, rfl, go 6 x p hp hx (by rw [← hb]; rfl)⟩

/-! ## what is told of an address -/

theorem text4_eq (x : Nat) : text4 x = dotted (octets x) := by
  unfold text4 dotted octets
  simp only [Nat.shiftRight_eq_div_pow, List.map]

theorem has_div (a p x : Nat) (hp : p ≤ 32) (ha : a < 2 ^ 32) (hd : 2 ^ (32 - p) ∣ a) (hx : x < 2 ^ 32) :
    (⟨4, a, p⟩ : Net.Network).has 4 x = decide (x / 2 ^ (32 - p) = a / 2 ^ (32 - p)) := by
  have := Net.has_iff ⟨4, a, p⟩ ⟨hp, ha, hd⟩ 4 x hx
  rw [Bool.eq_iff_iff, this, decide_eq_true_eq]
  simp [Block.Mem, Net.Network.block, Net.width]

theorem flags4_eq (priv : Nat → Bool) (x : Nat) (hx : x < 2 ^ 32) : flags4 priv x = v4Flags priv x := by
  unfold flags4 v4Flags linkLocal loopback multicast reserved
  rw [has_div _ 16 x (by decide) (by decide) (by decide) hx, has_div _ 8 x (by decide) (by decide) (by decide) hx,
    has_div _ 4 x (by decide) (by decide) (by decide) hx, has_div _ 4 x (by decide) (by decide) (by decide) hx]

theorem mask_netmask (p : Nat) (hp : p ≤ 32) : Net.mask 4 p = netmask p := by
  have : ∀ p < 33, Net.mask 4 p = netmask p := by decide +kernel
  exact this p (by omega)

theorem infoAddr4_eq (priv : Nat → Bool) (x : Nat) (hx : x < 2 ^ 32) : infoAddr4 priv x = v4Facts priv x := by
  unfold infoAddr4 v4Facts
  rw [flags4_eq priv x hx, text4_eq]

theorem infoIface4_eq (priv : Nat → Bool) (x p : Nat) (hx : x < 2 ^ 32) (hp : p ≤ 32) : infoIface4 priv x p = v4NetFacts priv x p := by
  have hok := Net.ifaceNet_ok 4 x p hp hx
  have ha : (Net.ifaceNet 4 x p).addr = x - x % 2 ^ (32 - p) := by
    show Nat.land x _ = _
    rw [Net.land_mask 4 p x hp hx]
    have := Nat.div_add_mod x (2 ^ (32 - p))
    show x / 2 ^ (32 - p) * 2 ^ (32 - p) = _
    rw [Nat.mul_comm]
    omega
  have hbr : (Net.ifaceNet 4 x p).broadcast = x - x % 2 ^ (32 - p) + (2 ^ (32 - p) - 1) := by
    rw [Net.broadcast_eq _ hok, ha]; rfl
  have hh : hostmask4 p = 2 ^ (32 - p) - 1 := Net.hostmask 4 p hp
  have hpos := Nat.two_pow_pos (32 - p)
  have hnum : x - x % 2 ^ (32 - p) + (2 ^ (32 - p) - 1) - (x - x % 2 ^ (32 - p)) + 1 = 2 ^ (32 - p) := by omega
  unfold infoIface4 v4NetFacts
  simp only [flags4_eq priv x hx, text4_eq, hbr, ha, hh, mask_netmask p hp, hnum]

end Ip
end TTP
