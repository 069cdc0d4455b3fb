import Verif.Py.Str
/-!
# Facts about string methods
-/

namespace Py

/-! ## split and join -/

theorem splitC_ne_nil (sep : Char) (s : Str) : splitC sep s ≠ [] := by
  cases s with
  | nil => simp [splitC]
  | cons c cs =>
    unfold splitC
    split
    · simp
    · split <;> simp

theorem join_cons (sep w : Str) (ws : List Str) (h : ws ≠ []) : join sep (w :: ws) = w ++ sep ++ join sep ws := by
  cases ws with
  | nil => exact absurd rfl h
  | cons a b => rfl

theorem join_splitC (sep : Char) (s : Str) : join [sep] (splitC sep s) = s := by
  induction s with
  | nil => rfl
  | cons c cs ih =>
    unfold splitC
    split
    · rename_i h
      rw [join_cons _ _ _ (splitC_ne_nil sep cs), ih, h]
      rfl
    · cases hs : splitC sep cs with
      | nil => exact absurd hs (splitC_ne_nil sep cs)
      | cons w ws =>
        simp only
        rw [hs] at ih
        cases ws with
        | nil => simp only [join] at ih ⊢; rw [ih]
        | cons w2 ws =>
          rw [join_cons _ _ _ (by simp)] at ih ⊢
          rw [← ih]; simp

theorem splitC_no_sep (sep : Char) (s : Str) : ∀ w ∈ splitC sep s, sep ∉ w := by
  induction s with
  | nil => simp [splitC]
  | cons c cs ih =>
    unfold splitC
    split
    · intro w hw
      rcases List.mem_cons.1 hw with rfl | hw
      · simp
      · exact ih w hw
    · rename_i h
      cases hs : splitC sep cs with
      | nil => exact absurd hs (splitC_ne_nil sep cs)
      | cons w ws =>
        rw [hs] at ih
        intro v hv
        simp only at hv
        rcases List.mem_cons.1 hv with rfl | hv
        · intro hc
          rcases List.mem_cons.1 hc with e | hc
          · exact h e.symm
          · exact ih w (by simp) hc
        · exact ih v (by simp [hv])

theorem splitC_append (sep : Char) (w : Str) (hw : sep ∉ w) (s : Str) : splitC sep (w ++ sep :: s) = w :: splitC sep s := by
  induction w with
  | nil => simp [splitC]
  | cons c cs ih =>
    have h1 : c ≠ sep := fun e => hw (by simp [e])
    have h2 : sep ∉ cs := fun e => hw (by simp [e])
    rw [List.cons_append, splitC, if_neg h1, ih h2]

theorem splitC_self (sep : Char) (w : Str) (hw : sep ∉ w) : splitC sep w = [w] := by
  induction w with
  | nil => rfl
  | cons c cs ih =>
    have h1 : c ≠ sep := fun e => hw (by simp [e])
    have h2 : sep ∉ cs := fun e => hw (by simp [e])
    rw [splitC, if_neg h1, ih h2]

theorem splitC_join (sep : Char) (ws : List Str) (hne : ws ≠ []) (h : ∀ w ∈ ws, sep ∉ w) : splitC sep (join [sep] ws) = ws := by
  induction ws with
  | nil => exact absurd rfl hne
  | cons w ws ih =>
    cases ws with
    | nil => exact splitC_self sep w (h w (by simp))
    | cons w2 ws =>
      rw [join_cons _ _ _ (by simp), List.append_assoc]
      rw [show w ++ ([sep] ++ join [sep] (w2 :: ws)) = w ++ sep :: join [sep] (w2 :: ws) from rfl, splitC_append sep w (h w (by simp)),
        ih (by simp) (fun v hv => h v (List.mem_cons_of_mem _ hv))]

theorem splitAux_eq (sep : Char) (s : Str) (acc : Str) :
    splitAux [sep] s 0 acc = match splitC sep s with
      | [] => [acc.reverse]
      | w :: ws => (acc.reverse ++ w) :: ws := by
  induction s generalizing acc with
  | nil => simp [splitAux, splitC]
  | cons c cs ih =>
    have hp : List.isPrefixOf [sep] (c :: cs) = (sep == c) := by simp [List.isPrefixOf]
    rw [splitAux, hp, splitC]
    by_cases h : c = sep
    · subst h
      simp only [beq_self_eq_true, if_true]
      have : splitAux [c] cs ([c].length - 1) [] = splitC c cs := by
        rw [show [c].length - 1 = 0 from rfl, ih]
        cases hs : splitC c cs with
        | nil => exact absurd hs (splitC_ne_nil c cs)
        | cons w ws => simp
      rw [this]; simp
    · have h2 : (sep == c) = false := by simp; exact fun e => h e.symm
      simp only [h2, h, if_false]
      rw [if_neg (by simp), ih]
      cases hs : splitC sep cs with
      | nil => exact absurd hs (splitC_ne_nil sep cs)
      | cons w ws => simp

/-- `s.split(c)` with one character -/
theorem split_char (sep : Char) (s : Str) : split [sep] s = splitC sep s := by
  unfold split
  rw [splitAux_eq]
  cases hs : splitC sep s with
  | nil => exact absurd hs (splitC_ne_nil sep s)
  | cons w ws => simp

theorem join_append (sep : Str) (a b : List Str) (ha : a ≠ []) (hb : b ≠ []) : join sep (a ++ b) = join sep a ++ sep ++ join sep b := by
  induction a with
  | nil => exact absurd rfl ha
  | cons w ws ih =>
    cases ws with
    | nil => rw [List.singleton_append, join_cons _ _ _ hb]; rfl
    | cons w2 ws =>
      rw [List.cons_append, join_cons _ _ _ (by simp), ih (by simp), join_cons sep w (w2 :: ws) (by simp)]
      simp

theorem mem_join (sep : Str) (ws : List Str) (c : Char) (h : c ∈ join sep ws) : c ∈ sep ∨ ∃ w ∈ ws, c ∈ w := by
  induction ws with
  | nil => simp [join] at h
  | cons w ws ih =>
    cases ws with
    | nil => exact Or.inr ⟨w, by simp, h⟩
    | cons w2 ws =>
      rw [join_cons _ _ _ (by simp)] at h
      simp only [List.mem_append] at h
      rcases h with (h | h) | h
      · exact Or.inr ⟨w, by simp, h⟩
      · exact Or.inl h
      · rcases ih h with h | ⟨v, hv, h⟩
        · exact Or.inl h
        · exact Or.inr ⟨v, List.mem_cons_of_mem _ hv, h⟩

/-! ## numbers -/

theorem digitChar_toNat (n : Nat) (h : n < 10) : (digitChar n).toNat = 48 + n := by
  unfold digitChar
  have : (48 + n).isValidChar := by left; omega
  simp [Char.ofNat, this, Char.ofNatAux, Char.toNat]
  omega

theorem isDigit_digitChar (n : Nat) (h : n < 10) : isDigit (digitChar n) = true := by
  simp [isDigit, digitChar_toNat n h]; omega

theorem digitVal_digitChar (n : Nat) (h : n < 10) : digitVal (digitChar n) = n := by
  simp [digitVal, digitChar_toNat n h]

theorem natStrAux_digits (fuel n : Nat) (acc : Str) (h : acc.all isDigit = true) : (natStrAux fuel n acc).all isDigit = true := by
  induction fuel generalizing n acc with
  | zero => exact h
  | succ fuel ih =>
    unfold natStrAux
    split
    · rename_i hn; simp only [List.all_cons, isDigit_digitChar n hn, h, Bool.and_self]
    · exact ih _ _ (by simp only [List.all_cons, isDigit_digitChar (n % 10) (by omega), h, Bool.and_self])

/-- value of a digit string, from a start value -/
theorem natOfDigits_foldl (acc : Str) (k : Nat) : acc.foldl (fun n c => 10 * n + digitVal c) k = k * 10 ^ acc.length + natOfDigits acc := by
  unfold natOfDigits
  induction acc generalizing k with
  | nil => simp
  | cons c cs ih =>
    rw [List.foldl_cons, List.foldl_cons, ih, ih (10 * 0 + digitVal c)]
    simp [Nat.pow_succ]
    grind

theorem natOfDigits_cons (c : Char) (cs : Str) : natOfDigits (c :: cs) = digitVal c * 10 ^ cs.length + natOfDigits cs := by
  rw [natOfDigits, List.foldl_cons, natOfDigits_foldl]; simp

theorem natStrAux_val (fuel n : Nat) (acc : Str) (h : n < fuel) :
    natOfDigits (natStrAux fuel n acc) = n * 10 ^ acc.length + natOfDigits acc := by
  induction fuel generalizing n acc with
  | zero => omega
  | succ fuel ih =>
    unfold natStrAux
    split
    · rename_i hn
      rw [natOfDigits_cons, digitVal_digitChar n hn]
    · rename_i hn
      rw [ih (n / 10) _ (by omega), natOfDigits_cons, digitVal_digitChar (n % 10) (by omega), List.length_cons, Nat.pow_succ]
      have := Nat.div_add_mod n 10
      generalize 10 ^ acc.length = p at *
      have : n * p = (10 * (n / 10) + n % 10) * p := by rw [this]
      rw [this, Nat.add_mul]
      grind

theorem natStr_val (n : Nat) : natOfDigits (natStr n) = n := by
  unfold natStr
  rw [natStrAux_val _ _ _ (by omega)]
  simp [natOfDigits]

theorem natStr_digits (n : Nat) : (natStr n).all isDigit = true := natStrAux_digits _ _ _ rfl

theorem natStrAux_ne_nil (fuel n : Nat) (acc : Str) (h : acc ≠ [] ∨ 0 < fuel) : natStrAux fuel n acc ≠ [] := by
  induction fuel generalizing n acc with
  | zero =>
    rcases h with h | h
    · exact h
    · omega
  | succ fuel ih =>
    unfold natStrAux
    split
    · simp
    · exact ih _ _ (Or.inl (by simp))

theorem natStr_ne_nil (n : Nat) : natStr n ≠ [] := natStrAux_ne_nil _ _ _ (Or.inr (by omega))

theorem isDigit_not_space' (c : Char) (h : isDigit c = true) : isSpace c = false := by
  simp only [isDigit, Bool.and_eq_true, decide_eq_true_eq] at h
  simp only [isSpace]
  have h1 : c.toNat ≠ 0x85 := by omega
  have h2 : c.toNat ≠ 0xA0 := by omega
  have h3 : c.toNat ≠ 0x1680 := by omega
  have h4 : c.toNat ≠ 0x2028 := by omega
  have h5 : c.toNat ≠ 0x2029 := by omega
  have h6 : c.toNat ≠ 0x202F := by omega
  have h7 : c.toNat ≠ 0x205F := by omega
  have h8 : c.toNat ≠ 0x3000 := by omega
  simp [h1, h2, h3, h4, h5, h6, h7, h8]
  omega

theorem dropWhile_none {p : Char → Bool} (s : Str) (h : ∀ c ∈ s, p c = false) : s.dropWhile p = s := by
  cases s with
  | nil => rfl
  | cons c cs => simp [h c (by simp)]

theorem strip_none (s : Str) (h : ∀ c ∈ s, isSpace c = false) : strip s = s := by
  unfold strip rstrip rstripP lstrip
  rw [dropWhile_none s h, dropWhile_none _ (fun c hc => h c (by simpa using hc)), List.reverse_reverse]

theorem intBody_digits (b : Bool) (s : Str) (h : s.all isDigit = true) (hs : s ≠ [] ∨ b = true) : intBody b s = true := by
  induction s generalizing b with
  | nil =>
    rcases hs with h | h
    · exact absurd rfl h
    · simpa [intBody] using h
  | cons c cs ih =>
    simp only [List.all_cons, Bool.and_eq_true] at h
    rw [intBody, if_pos h.1]
    exact ih true h.2 (Or.inr rfl)

/-- `int(s)` of a string of digits -/
theorem intOfStr_digits (s : Str) (h : s.all isDigit = true) (hs : s ≠ []) : intOfStr s = some (natOfDigits s : Int) := by
  have hd : ∀ c ∈ s, isDigit c = true := by simpa using h
  unfold intOfStr
  rw [strip_none s (fun c hc => isDigit_not_space' c (hd c hc))]
  cases s with
  | nil => exact absurd rfl hs
  | cons c cs =>
    have hc := hd c (by simp)
    have h1 : c ≠ '-' := by rintro rfl; revert hc; decide
    have h2 : c ≠ '+' := by rintro rfl; revert hc; decide
    have hf : (c :: cs).filter isDigit = c :: cs := by rw [List.filter_eq_self]; exact hd
    simp only [h1, h2, if_false, intBody_digits false (c :: cs) h (Or.inl (by simp)), if_true, hf]

/-- `int(str(n)) == n` -/
theorem intOfStr_natStr (n : Nat) : intOfStr (natStr n) = some (n : Int) := by
  rw [intOfStr_digits _ (natStr_digits n) (natStr_ne_nil n), natStr_val]

theorem natStr_no (n : Nat) (c : Char) (h : isDigit c = false) : c ∉ natStr n := by
  intro hc
  have := natStr_digits n
  rw [List.all_eq_true] at this
  rw [this c hc] at h
  cases h

end Py
