import Verif.Model.Json
import Verif.Spec.Json
import Verif.Proofs.PyStr
import Verif.Proofs.HeaderText
/-!
# JSON texts: the reader accepts exactly the documents of the grammar
-/

namespace TTP.Json
open Py Spec

theorem isWs_iff (c : Char) : isWs c = true ↔ (c = ' ' ∨ c = '\t' ∨ c = '\n' ∨ c = '\r') := by
  unfold isWs; simp [or_assoc]

theorem blank_iff (s : Str) : JBlank s ↔ ∀ c ∈ s, isWs c = true := by
  unfold JBlank; simp only [isWs_iff]

theorem blank_nil : JBlank [] := fun _ h => by cases h

/-- no white space at the beginning -/
def NoWs (s : Str) : Prop := ∀ c r, s = c :: r → isWs c = false

theorem skipWs_append {w r : Str} (h : JBlank w) : skipWs (w ++ r) = skipWs r := by
  rw [blank_iff] at h
  unfold skipWs
  induction w with
  | nil => rfl
  | cons c w ih =>
    rw [List.cons_append, List.dropWhile_cons, if_pos (h c (by simp))]
    exact ih (fun c hc => h c (by simp [hc]))

theorem skipWs_noWs {s : Str} (h : NoWs s) : skipWs s = s := by
  cases s with
  | nil => rfl
  | cons c r => unfold skipWs; rw [List.dropWhile_cons, h c r rfl]; rfl

theorem skipWs_split (s : Str) : ∃ w, s = w ++ skipWs s ∧ JBlank w := by
  refine ⟨s.takeWhile isWs, (List.takeWhile_append_dropWhile).symm, ?_⟩
  rw [blank_iff]
  intro c hc
  exact (List.all_eq_true.1 (List.all_takeWhile (p := isWs) (l := s))) c hc

theorem skipWs_cons {c : Char} {r : Str} (h : isWs c = false) : skipWs (c :: r) = c :: r :=
  skipWs_noWs (fun a b e => by cases e; exact h)

theorem skipWs_blank_cons {w : Str} {c : Char} {r : Str} (hw : JBlank w) (h : isWs c = false) : skipWs (w ++ c :: r) = c :: r := by
  rw [skipWs_append hw, skipWs_cons h]

/-! ## Texts -/

theorem hexVal_iff (c : Char) (n : Nat) : hexVal c = some n ↔ Hex1 c n := by
  have e : ∀ a b : Char, a ≤ b ↔ a.toNat ≤ b.toNat := fun a b => Iff.rfl
  constructor
  · intro h
    unfold hexVal at h
    split at h
    · cases h; exact Hex1.digit c ((e _ _).2 (by simpa using ‹_ ∧ _›.1)) ((e _ _).2 (by simpa using ‹_ ∧ _›.2))
    · split at h
      · rename_i h2
        cases h
        have := Hex1.lower c ((e _ _).2 (by simpa using h2.1)) ((e _ _).2 (by simpa using h2.2))
        have e2 : c.toNat - 'a'.toNat + 10 = c.toNat - 87 := by
          have : 'a'.toNat = 97 := rfl
          omega
        rwa [e2] at this
      · split at h
        · rename_i h3
          cases h
          have := Hex1.upper c ((e _ _).2 (by simpa using h3.1)) ((e _ _).2 (by simpa using h3.2))
          have e2 : c.toNat - 'A'.toNat + 10 = c.toNat - 55 := by
            have : 'A'.toNat = 65 := rfl
            omega
          rwa [e2] at this
        · cases h
  · intro h
    unfold hexVal
    have z : '0'.toNat = 48 := rfl
    have n9 : '9'.toNat = 57 := rfl
    have a : 'a'.toNat = 97 := rfl
    have f : 'f'.toNat = 102 := rfl
    have A : 'A'.toNat = 65 := rfl
    have F : 'F'.toNat = 70 := rfl
    cases h with
    | digit h1 h2 =>
      rw [e, z] at h1; rw [e, n9] at h2
      rw [if_pos ⟨h1, h2⟩, z]
    | lower h1 h2 =>
      rw [e, a] at h1; rw [e, f] at h2
      rw [if_neg (by omega), if_pos ⟨h1, h2⟩, a]
      congr 1; omega
    | upper h1 h2 =>
      rw [e, A] at h1; rw [e, F] at h2
      rw [if_neg (by omega), if_neg (by omega), if_pos ⟨h1, h2⟩, A]
      congr 1; omega

theorem hex4_sound {s r : Str} {n : Nat} (h : hex4 s = some (n, r)) : ∃ q, s = q ++ r ∧ Hex4 q n := by
  unfold hex4 at h
  split at h
  · rename_i a b c d r'
    simp only [Option.bind_eq_bind, Option.bind_eq_some_iff, Option.pure_def, Option.some.injEq, Prod.mk.injEq] at h
    obtain ⟨w, hw, x, hx, y, hy, z, hz, e, rfl⟩ := h
    refine ⟨[a, b, c, d], rfl, ?_⟩
    have := Hex4.mk ((hexVal_iff _ _).1 hw) ((hexVal_iff _ _).1 hx) ((hexVal_iff _ _).1 hy) ((hexVal_iff _ _).1 hz)
    have e2 : w * 4096 + x * 256 + y * 16 + z = n := by omega
    rwa [e2] at this
  · cases h

theorem hex4_complete {q : Str} {n : Nat} (h : Hex4 q n) (r : Str) : hex4 (q ++ r) = some (n, r) := by
  obtain ⟨ha, hb, hc, hd⟩ := h
  rename_i w x y z _ _ _ _
  simp only [List.cons_append, List.nil_append, hex4]
  rw [(hexVal_iff _ _).2 ha, (hexVal_iff _ _).2 hb, (hexVal_iff _ _).2 hc, (hexVal_iff _ _).2 hd]
  simp only [Option.bind_eq_bind, Option.bind_some, Option.pure_def, Option.some.injEq, Prod.mk.injEq, and_true]
  omega

theorem hex4_len {q : Str} {n : Nat} (h : Hex4 q n) : q.length = 4 ∧ n < 65536 := by
  have b : ∀ c n, Hex1 c n → n < 16 := by
    intro c n h
    have e : ∀ a b : Char, a ≤ b ↔ a.toNat ≤ b.toNat := fun a b => Iff.rfl
    have z : '0'.toNat = 48 := rfl
    have n9 : '9'.toNat = 57 := rfl
    have a : 'a'.toNat = 97 := rfl
    have f : 'f'.toNat = 102 := rfl
    have A : 'A'.toNat = 65 := rfl
    have F : 'F'.toNat = 70 := rfl
    cases h with
    | digit h1 h2 => rw [e] at h1 h2; omega
    | lower h1 h2 => rw [e] at h1 h2; omega
    | upper h1 h2 => rw [e] at h1 h2; omega
  obtain ⟨ha, hb, hc, hd⟩ := h
  refine ⟨rfl, ?_⟩
  have := b _ _ ha; have := b _ _ hb; have := b _ _ hc; have := b _ _ hd
  omega

theorem short_iff (e c : Char) : short e = some c ↔ (e, c) ∈ shortEscapes := by
  unfold short shortEscapes
  simp only [List.mem_cons, Prod.mk.injEq, List.not_mem_nil, or_false]
  constructor
  · intro h
    repeat' (split at h)
    all_goals first | (cases h; simp_all) | cases h
  · rintro (⟨rfl, rfl⟩ | ⟨rfl, rfl⟩ | ⟨rfl, rfl⟩ | ⟨rfl, rfl⟩ | ⟨rfl, rfl⟩ | ⟨rfl, rfl⟩ | ⟨rfl, rfl⟩ | ⟨rfl, rfl⟩) <;> rfl

theorem toNat_ofNat_valid (n : Nat) (h : n < 55296 ∨ (57343 < n ∧ n < 1114112)) : (Char.ofNat n).toNat = n := by
  have : n.isValidChar := by
    rcases h with h | ⟨h1, h2⟩
    · exact Or.inl h
    · exact Or.inr ⟨h1, h2⟩
  simp only [Char.ofNat, this, dif_pos]
  rfl

theorem ofNat_toNat_eq (c : Char) (n : Nat) (h : c.toNat = n) : Char.ofNat n = c := by
  subst h; exact Char.ofNat_toNat c

theorem toNat_valid (c : Char) : c.toNat < 55296 ∨ (57343 < c.toNat ∧ c.toNat < 1114112) := c.valid

theorem escape_sound {s r : Str} {x : Char} (h : escape s = some (x, r)) :
    ∃ q, s = q ++ r ∧ q ≠ [] ∧ ∀ t y, JChars t y → JChars ('\\' :: (q ++ t)) (x :: y) := by
  cases s with
  | nil => cases h
  | cons e s =>
    rw [escape] at h
    by_cases he : e = 'u'
    · rw [if_pos he] at h
      subst he
      split at h
      · rename_i n r' h4
        obtain ⟨q, rfl, hq⟩ := hex4_sound h4
        unfold unitChar at h
        by_cases hh : 55296 ≤ n ∧ n ≤ 56319
        · rw [if_pos hh] at h
          unfold lowHalf at h
          split at h
          · rename_i r2
            split at h
            · rename_i lo r3 h5
              obtain ⟨l, rfl, hl⟩ := hex4_sound h5
              split at h
              · rename_i hlo
                simp only [Option.some.injEq, Prod.mk.injEq] at h
                obtain ⟨hx, rfl⟩ := h
                rw [← hx]
                refine ⟨'u' :: (q ++ ('\\' :: 'u' :: l)), by simp, by simp, ?_⟩
                intro t y ht
                have := JChars.pair (Char.ofNat (65536 + (n - 55296) * 1024 + (lo - 56320))) hq hl hh.1 hh.2 hlo.1 hlo.2
                  (toNat_ofNat_valid _ (Or.inr (by omega))) ht
                simpa using this
              · cases h
            · cases h
          · cases h
        · rw [if_neg hh] at h
          split at h
          · cases h
          · rename_i h2
            cases h
            refine ⟨'u' :: q, by simp, by simp, ?_⟩
            intro t y ht
            have hb := (hex4_len hq).2
            have := JChars.unit (h := q) (Char.ofNat n) (by rw [toNat_ofNat_valid _ (by omega)]; exact hq) ht
            simpa using this
      · cases h
    · rw [if_neg he] at h
      cases hs : short e with
      | none => rw [hs] at h; cases h
      | some c =>
        rw [hs] at h
        cases h
        exact ⟨[e], rfl, by simp, fun t y ht => JChars.short e x ((short_iff _ _).1 hs) ht⟩

theorem chars_sound : ∀ (n : Nat) (s x r : Str), chars n s = some (x, r) → ∃ b, s = b ++ '"' :: r ∧ JChars b x
  | 0, _, _, _, h => by cases h
  | _ + 1, [], _, _, h => by cases h
  | n + 1, c :: s, x, r, h => by
    unfold chars at h
    split at h
    · rename_i hc; cases h; subst hc; exact ⟨[], rfl, JChars.nil⟩
    · rename_i hq
      split at h
      · rename_i hb
        split at h
        · rename_i y r' he
          obtain ⟨q, rfl, _, hq'⟩ := escape_sound he
          cases hch : chars n r' with
          | none => rw [hch] at h; cases h
          | some p =>
            obtain ⟨u, r2⟩ := p
            rw [hch] at h
            cases h
            obtain ⟨b, rfl, hb2⟩ := chars_sound n _ _ _ hch
            subst hb
            exact ⟨'\\' :: (q ++ b), by simp, hq' _ _ hb2⟩
        · cases h
      · rename_i hb
        split at h
        · cases h
        · rename_i h32
          cases hch : chars n s with
          | none => rw [hch] at h; cases h
          | some p =>
            obtain ⟨u, r2⟩ := p
            rw [hch] at h
            cases h
            obtain ⟨b, rfl, hb2⟩ := chars_sound n _ _ _ hch
            exact ⟨c :: b, by simp, JChars.plain c (by omega) hq hb hb2⟩

theorem chars_complete {b x : Str} (h : JChars b x) : ∀ (n : Nat) (r : Str), b.length < n → chars n (b ++ '"' :: r) = some (x, r) := by
  induction h with
  | nil =>
    intro n r hn
    obtain ⟨n, rfl⟩ : ∃ m, n = m + 1 := ⟨n - 1, by simp at hn; omega⟩
    rfl
  | plain c h1 h2 h3 _ ih =>
    intro n r hn
    obtain ⟨n, rfl⟩ : ∃ m, n = m + 1 := ⟨n - 1, by simp at hn; omega⟩
    rw [List.cons_append, chars, if_neg h2, if_neg h3, if_neg (by omega), ih n r (by simp at hn; omega)]
    rfl
  | short e c hm _ ih =>
    intro n r hn
    obtain ⟨n, rfl⟩ : ∃ m, n = m + 1 := ⟨n - 1, by simp at hn; omega⟩
    rw [List.cons_append, List.cons_append, chars, if_neg (by decide), if_pos rfl, escape]
    have hs := (short_iff _ _).2 hm
    have hu : e ≠ 'u' := by
      rintro rfl
      exact absurd hs (by simp [short])
    rw [if_neg hu, hs]
    simp only [Option.map_some]
    rw [ih n r (by simp at hn; omega)]; rfl
  | unit c hh _ ih =>
    rename_i h t s _
    intro n r hn
    obtain ⟨n, rfl⟩ : ∃ m, n = m + 1 := ⟨n - 1, by simp at hn; omega⟩
    rw [List.cons_append, List.cons_append, chars, if_neg (by decide), if_pos rfl, escape, if_pos rfl, List.append_assoc, hex4_complete hh]
    simp only [unitChar]
    have hv := toNat_valid c
    rw [if_neg (by omega), if_neg (by omega)]
    simp only [Char.ofNat_toNat]
    rw [ih n r (by simp at hn; omega)]; rfl
  | pair c hh hl h1 h2 h3 h4 hc _ ih =>
    rename_i h l hi lo t s _
    intro n r hn
    obtain ⟨n, rfl⟩ : ∃ m, n = m + 1 := ⟨n - 1, by simp at hn; omega⟩
    rw [List.cons_append, List.cons_append, chars, if_neg (by decide), if_pos rfl, escape, if_pos rfl, List.append_assoc, hex4_complete hh]
    simp only [unitChar]
    rw [if_pos ⟨h1, h2⟩]
    simp only [lowHalf, List.cons_append, List.append_assoc]
    rw [hex4_complete hl]
    simp only
    rw [if_pos ⟨h3, h4⟩, ofNat_toNat_eq c _ hc]
    simp only
    rw [ih n r (by simp at hn; omega)]; rfl

theorem textOf_sound {s r : Str} {v : Val} (h : textOf s = some (v, r)) : ∃ x b, s = b ++ '"' :: r ∧ JChars b x ∧ v = .str x := by
  unfold textOf at h
  split at h
  · rename_i x r' hc
    cases h
    obtain ⟨b, e, hb⟩ := chars_sound _ _ _ _ hc
    exact ⟨x, b, e, hb, rfl⟩
  · cases h

theorem textOf_complete {b x : Str} (h : JChars b x) (r : Str) : textOf (b ++ '"' :: r) = some (.str x, r) := by
  unfold textOf
  rw [chars_complete h _ r (by simp; omega)]

end TTP.Json
