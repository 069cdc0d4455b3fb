import Verif.Proofs.Args
/-!
# Arguments of functions: values and arguments
-/

namespace TTP
open Py Spec
namespace Args

theorem digits_head {ds : Str} (h : IntDigits ds) : ∃ c cs, ds = c :: cs ∧ isDig c = true := by
  have hall := digits_all h
  rcases h with rfl | ⟨c, cs, rfl, _⟩
  · exact ⟨'0', [], rfl, by decide⟩
  · exact ⟨c, cs, rfl, (isDig_iff c).2 (hall c (by simp))⟩

theorem dig_facts {c : Char} (h : isDig c = true) : isBlank c = false ∧ c ≠ ']' ∧ isQuote c = false ∧ isStart c = false := by
  refine ⟨?_, ?_, ?_, ?_⟩
  · cases hb : isBlank c with
    | false => rfl
    | true =>
      rcases (isBlank_iff c).1 hb with rfl | rfl | hx
      · exact absurd h (by decide)
      · exact absurd h (by decide)
      · have : c = Char.ofNat 12 := by rw [← Char.ofNat_toNat c, hx]
        rw [this] at h; exact absurd h (by decide)
  · rintro rfl; exact absurd h (by decide)
  · cases hq : isQuote c with
    | false => rfl
    | true => rcases (isQuote_iff c).1 hq with rfl | rfl <;> exact absurd h (by decide)
  · cases hs : isStart c with
    | false => rfl
    | true => rw [(start_digit hs).1] at h; cases h

theorem avalue_head {t : Str} {v : Val} (h : AValue t v) : ∃ c q, t = c :: q ∧ isBlank c = false ∧ c ≠ ']' := by
  cases h with
  | text h =>
    obtain ⟨q, r, rfl, hq⟩ := atexts_head h
    exact ⟨q, r, rfl, (quote_facts hq).2.1, by rintro rfl; rcases hq with e | e <;> cases e⟩
  | int h =>
    obtain ⟨c, cs, rfl, hc⟩ := digits_head h.1
    exact ⟨c, cs, rfl, (dig_facts hc).1, (dig_facts hc).2.1⟩
  | neg _ _ => exact ⟨_, _, rfl, by decide, by decide⟩
  | name h _ =>
    have h' := h
    obtain ⟨⟨⟨c, r, rfl, _⟩, _⟩, _⟩ := h'
    have := start_digit (start_of_name h.1)
    exact ⟨c, r, rfl, this.2.2.2.2.1, this.2.2.2.2.2.1⟩
  | list _ => exact ⟨_, _, rfl, by decide, by decide⟩

theorem skip_value {a t : Str} {v : Val} (ha : ABlank a) (h : AValue t v) (r : Str) : skip (a ++ (t ++ r)) = t ++ r := by
  obtain ⟨c, q, rfl, hc, _⟩ := avalue_head h
  rw [skip_blank ha, List.cons_append, skip_self hc]

theorem nameValue_complete {n : Str} {v : Val} (h : Bare n) (hv : BareMeans n v) {r : Str} (hr : Ends r) : nameValue (n ++ r) = some (v, r) := by
  unfold nameValue
  rw [word_complete h.1 hr.1]
  simp only [(isOther_iff n h.1).2 h, Bool.false_eq_true, if_false, (nameVal_iff n v).2 hv]

theorem nameValue_sound {s r : Str} {v : Val} (h : nameValue s = some (v, r)) : ∃ n, s = n ++ r ∧ Bare n ∧ BareMeans n v := by
  unfold nameValue at h
  cases e : word s with
  | none => rw [e] at h; cases h
  | some p =>
    obtain ⟨n, r'⟩ := p
    rw [e] at h
    simp only at h
    obtain ⟨h1, h2, _⟩ := word_sound e
    split at h
    · cases h
    · rename_i hn
      simp only [Option.some.injEq, Prod.mk.injEq] at h
      obtain ⟨h3, rfl⟩ := h
      exact ⟨n, h1, (isOther_iff n h2).1 (by simpa using hn), (nameVal_iff n v).1 h3⟩

mutual
theorem value_complete : ∀ {t : Str} {v : Val}, AValue t v → ∀ (r : Str), Ends r → ∀ n, t.length ≤ n → value n (t ++ r) = some (v, r)
  | _, _, @AValue.text s v h, r, hr, n, hn => by
    obtain ⟨q, s', rfl, hq⟩ := atexts_head h
    obtain ⟨m, rfl⟩ : ∃ m, n = m + 1 := ⟨n - 1, by simp at hn; omega⟩
    rw [List.cons_append, value, if_pos (quote_facts hq).1]
    unfold textValue
    rw [← List.cons_append, texts_complete h hr _ (by simp)]
    rfl
  | _, _, @AValue.int ds h, r, hr, n, hn => by
    obtain ⟨c, cs, rfl, hc⟩ := digits_head h.1
    obtain ⟨m, rfl⟩ : ∃ m, n = m + 1 := ⟨n - 1, by simp at hn; omega⟩
    rw [List.cons_append, value, if_neg (by rw [(dig_facts hc).2.2.1]; decide), if_pos hc]
    unfold intValue
    rw [← List.cons_append, number_complete h hr.1]
    rfl
  | _, _, @AValue.neg w ds hw h, r, hr, n, hn => by
    obtain ⟨m, rfl⟩ : ∃ m, n = m + 1 := ⟨n - 1, by simp at hn; omega⟩
    rw [List.cons_append, value, if_neg (by decide), if_neg (by decide), if_pos rfl]
    unfold negValue
    obtain ⟨c, cs, rfl, hc⟩ := digits_head h.1
    rw [List.append_assoc, skip_blank hw, List.cons_append, skip_self (dig_facts hc).1, ← List.cons_append, number_complete h hr.1]
    rfl
  | _, _, @AValue.name k v h hv, r, hr, n, hn => by
    have h' := h
    obtain ⟨⟨⟨c, cs, rfl, _⟩, _⟩, _⟩ := h'
    have hf := start_digit (start_of_name h.1)
    obtain ⟨m, rfl⟩ : ∃ m, n = m + 1 := ⟨n - 1, by simp at hn; omega⟩
    rw [List.cons_append, value, if_neg (by rw [hf.2.1]; decide), if_neg (by rw [hf.1]; decide), if_neg hf.2.2.1, if_neg hf.2.2.2.1, ← List.cons_append,
      nameValue_complete h hv hr]
  | _, _, @AValue.list s vs h, r, hr, n, hn => by
    obtain ⟨m, rfl⟩ : ∃ m, n = m + 1 := ⟨n - 1, by simp at hn; omega⟩
    have e : '[' :: (s ++ [']']) ++ r = '[' :: (s ++ ']' :: r) := by simp
    rw [e, value, if_neg (by decide), if_neg (by decide), if_neg (by decide), if_pos rfl, values_complete h r m (by simp at hn ⊢; omega)]
    rfl
theorem values_complete : ∀ {s : Str} {vs : List Val}, AValues s vs → ∀ (r : Str), ∀ n, s.length + 1 ≤ n → values n (s ++ ']' :: r) = some (vs, r)
  | _, _, @AValues.nil w hw, r, n, hn => by
    obtain ⟨m, rfl⟩ : ∃ m, n = m + 1 := ⟨n - 1, by omega⟩
    rw [values, after_complete hw (by decide)]
  | _, _, @AValues.last a t b v ha ht hb, r, n, hn => by
    obtain ⟨m, rfl⟩ : ∃ m, n = m + 1 := ⟨n - 1, by omega⟩
    obtain ⟨c, q, hc, hbl, hne⟩ := avalue_head ht
    have e : a ++ (t ++ b) ++ ']' :: r = a ++ (t ++ (b ++ ']' :: r)) := by simp
    have e1 : after ']' (a ++ (t ++ (b ++ ']' :: r))) = none := by
      rw [hc, List.cons_append]; exact after_other ha hbl hne _
    rw [e, values, e1, skip_value ha ht,
      value_complete ht _ (ends_sep hb (by decide) (by decide) (by decide) r) m (by simp at hn ⊢; omega)]
    simp only
    rw [after_other hb (by decide) (by decide), after_complete hb (by decide)]
    rfl
  | _, _, @AValues.more a t b s v vs ha ht hb hs, r, n, hn => by
    obtain ⟨m, rfl⟩ : ∃ m, n = m + 1 := ⟨n - 1, by omega⟩
    obtain ⟨c, q, hc, hbl, hne⟩ := avalue_head ht
    have e : a ++ (t ++ (b ++ (',' :: s))) ++ ']' :: r = a ++ (t ++ (b ++ ',' :: (s ++ ']' :: r))) := by simp
    have e1 : after ']' (a ++ (t ++ (b ++ ',' :: (s ++ ']' :: r)))) = none := by
      rw [hc, List.cons_append]; exact after_other ha hbl hne _
    rw [e, values, e1, skip_value ha ht,
      value_complete ht _ (ends_sep hb (by decide) (by decide) (by decide) _) m (by simp at hn ⊢; omega)]
    simp only
    rw [after_complete hb (by decide)]
    simp only
    rw [values_complete hs r m (by simp at hn ⊢; omega)]
    rfl
end

theorem value_sound : ∀ (n : Nat), (∀ s v r, value n s = some (v, r) → ∃ t, s = t ++ r ∧ AValue t v) ∧
    (∀ s vs r, values n s = some (vs, r) → ∃ t, s = t ++ ']' :: r ∧ AValues t vs) := by
  intro n
  induction n with
  | zero => exact ⟨(by intro s v r h; rw [value] at h; cases h), (by intro s v r h; rw [values] at h; cases h)⟩
  | succ n ih =>
    constructor
    · intro s v r h
      cases s with
      | nil => rw [value] at h; cases h
      | cons c s =>
        rw [value] at h
        split at h
        · unfold textValue at h
          cases e : texts (c :: s).length (c :: s) with
          | none => rw [e] at h; cases h
          | some p =>
            obtain ⟨u, r'⟩ := p
            rw [e] at h
            simp only [Option.map_some, Option.some.injEq, Prod.mk.injEq] at h
            obtain ⟨rfl, rfl⟩ := h
            obtain ⟨t, h1, h2, _⟩ := texts_sound _ _ _ _ e
            exact ⟨t, h1, .text h2⟩
        · split at h
          · unfold intValue at h
            cases e : number (c :: s) with
            | none => rw [e] at h; cases h
            | some p =>
              obtain ⟨u, r'⟩ := p
              rw [e] at h
              simp only [Option.map_some, Option.some.injEq, Prod.mk.injEq] at h
              obtain ⟨rfl, rfl⟩ := h
              obtain ⟨ds, h1, h2, rfl⟩ := number_sound e
              exact ⟨ds, h1, .int h2⟩
          · split at h
            · rename_i hc
              unfold negValue at h
              cases e : number (skip s) with
              | none => rw [e] at h; cases h
              | some p =>
                obtain ⟨u, r'⟩ := p
                rw [e] at h
                simp only [Option.map_some, Option.some.injEq, Prod.mk.injEq] at h
                obtain ⟨rfl, rfl⟩ := h
                obtain ⟨ds, h1, h2, rfl⟩ := number_sound e
                obtain ⟨w, hw1, hw2⟩ := skip_split s
                exact ⟨'-' :: (w ++ ds), by rw [hc, hw1, h1]; simp, .neg hw2 h2⟩
            · split at h
              · rename_i hc
                cases e : values n s with
                | none => rw [e] at h; cases h
                | some p =>
                  obtain ⟨u, r'⟩ := p
                  rw [e] at h
                  simp only [Option.map_some, Option.some.injEq, Prod.mk.injEq] at h
                  obtain ⟨rfl, rfl⟩ := h
                  obtain ⟨t, h1, h2⟩ := ih.2 _ _ _ e
                  exact ⟨'[' :: (t ++ [']']), by rw [hc, h1]; simp, .list h2⟩
              · obtain ⟨k, h1, h2, h3⟩ := nameValue_sound h
                exact ⟨k, h1, .name h2 h3⟩
    · intro s vs r h
      rw [values] at h
      cases e : after ']' s with
      | some r' =>
        rw [e] at h
        simp only [Option.some.injEq, Prod.mk.injEq] at h
        obtain ⟨rfl, rfl⟩ := h
        obtain ⟨w, h1, h2⟩ := after_sound e
        exact ⟨w, h2, .nil h1⟩
      | none =>
        rw [e] at h
        simp only at h
        cases e2 : value n (skip s) with
        | none => rw [e2] at h; cases h
        | some p =>
          obtain ⟨v, r1⟩ := p
          rw [e2] at h
          simp only at h
          obtain ⟨t, h1, h2⟩ := ih.1 _ _ _ e2
          obtain ⟨w, hw1, hw2⟩ := skip_split s
          cases e3 : after ',' r1 with
          | some r2 =>
            rw [e3] at h
            simp only at h
            cases e4 : values n r2 with
            | none => rw [e4] at h; cases h
            | some p =>
              obtain ⟨us, r3⟩ := p
              rw [e4] at h
              simp only [Option.map_some, Option.some.injEq, Prod.mk.injEq] at h
              obtain ⟨rfl, rfl⟩ := h
              obtain ⟨t2, h3, h4⟩ := ih.2 _ _ _ e4
              obtain ⟨b, hb1, hb2⟩ := after_sound e3
              exact ⟨w ++ (t ++ (b ++ (',' :: t2))), by rw [hw1, h1, hb2, h3]; simp, .more hw2 h2 hb1 h4⟩
          | none =>
            rw [e3] at h
            simp only at h
            cases e4 : after ']' r1 with
            | none => rw [e4] at h; cases h
            | some r2 =>
              rw [e4] at h
              simp only [Option.map_some, Option.some.injEq, Prod.mk.injEq] at h
              obtain ⟨rfl, rfl⟩ := h
              obtain ⟨b, hb1, hb2⟩ := after_sound e4
              exact ⟨w ++ (t ++ b), by rw [hw1, h1, hb2]; simp, .last hw2 h2 hb1⟩

/-! ## arguments -/

theorem word_none {c : Char} (h : isStart c = false) (s : Str) : word (c :: s) = none := by
  unfold word
  rw [if_neg (by simp [h])]

theorem keyword_value {t : Str} {v : Val} (h : AValue t v) {r : Str} (hr : Ends r) (he : after '=' r = none) : keyword (t ++ r) = none := by
  unfold keyword
  cases h with
  | text h =>
    obtain ⟨q, s, rfl, hq⟩ := atexts_head h
    rw [List.cons_append, word_none (by rcases hq with rfl | rfl <;> decide)]
  | int h =>
    obtain ⟨c, cs, rfl, hc⟩ := digits_head h.1
    rw [List.cons_append, word_none (dig_facts hc).2.2.2]
  | neg _ _ => rw [List.cons_append, word_none (by decide)]
  | name h _ =>
    rw [word_complete h.1 hr.1]
    simp only [he]
  | list _ => rw [List.cons_append, word_none (by decide)]

theorem named_ok {n : Str} (h1 : n ∉ pythonWords) (h2 : n ∉ [c!"True", c!"False", c!"None"]) (h3 : ¬ c!"__" <+: n) :
    ¬ (n ∈ pyKeywords ∨ n ∈ pyConstants ∨ startsWith n c!"__" = true) := by
  rintro (h | h | h)
  · exact h1 h
  · exact h2 h
  · exact h3 (List.isPrefixOf_iff_prefix.1 h)

theorem item_complete {t : Str} {i : Option Str × Val} (h : AItem t i) {r : Str} (hr : Ends r) (he : after '=' r = none) {n : Nat} (hn : t.length ≤ n) :
    item n (t ++ r) = some (i, r) := by
  unfold item
  cases h with
  | value h =>
    rw [keyword_value h hr he]
    simp only
    rw [value_complete h r hr n hn]
    rfl
  | @named k a b t v h1 h2 h3 h4 ha hb ht =>
    have e : k ++ (a ++ ('=' :: (b ++ t))) ++ r = k ++ (a ++ ('=' :: (b ++ (t ++ r)))) := by simp
    have hk : keyword (k ++ (a ++ ('=' :: (b ++ (t ++ r))))) = some (k, b ++ (t ++ r)) := by
      unfold keyword
      rw [word_complete h1 (ends_sep ha (by decide) (by decide) (by decide) _).1]
      simp only
      rw [after_complete ha (by decide)]
    rw [e, hk]
    simp only
    rw [if_neg (named_ok h2 h3 h4), skip_value hb ht, value_complete ht r hr n (by simp at hn; omega)]
    rfl

theorem item_sound {n : Nat} {s : Str} {i : Option Str × Val} {r : Str} (h : item n s = some (i, r)) : ∃ t, s = t ++ r ∧ AItem t i := by
  unfold item at h
  cases e : keyword s with
  | none =>
    rw [e] at h
    simp only at h
    cases e2 : value n s with
    | none => rw [e2] at h; cases h
    | some p =>
      obtain ⟨v, r'⟩ := p
      rw [e2] at h
      simp only [Option.map_some, Option.some.injEq, Prod.mk.injEq] at h
      obtain ⟨rfl, rfl⟩ := h
      obtain ⟨t, h1, h2⟩ := (value_sound n).1 _ _ _ e2
      exact ⟨t, h1, .value h2⟩
  | some k =>
    obtain ⟨k, r1⟩ := k
    rw [e] at h
    simp only at h
    split at h
    · cases h
    · rename_i hn
      unfold keyword at e
      cases e2 : word s with
      | none => rw [e2] at e; cases e
      | some p =>
        obtain ⟨k', r2⟩ := p
        rw [e2] at e
        simp only at e
        cases e3 : after '=' r2 with
        | none => rw [e3] at e; cases e
        | some r3 =>
          rw [e3] at e
          simp only [Option.some.injEq, Prod.mk.injEq] at e
          obtain ⟨rfl, rfl⟩ := e
          obtain ⟨h1, h2, _⟩ := word_sound e2
          obtain ⟨a, ha, h3⟩ := after_sound e3
          obtain ⟨b, hb1, hb2⟩ := skip_split r3
          cases e4 : value n (skip r3) with
          | none => rw [e4] at h; cases h
          | some p =>
            obtain ⟨v, r'⟩ := p
            rw [e4] at h
            simp only [Option.map_some, Option.some.injEq, Prod.mk.injEq] at h
            obtain ⟨rfl, rfl⟩ := h
            obtain ⟨t, h4, h5⟩ := (value_sound n).1 _ _ _ e4
            refine ⟨k' ++ (a ++ ('=' :: (b ++ t))), ?_, .named h2 (fun hk => hn (Or.inl hk)) (fun hk => hn (Or.inr (Or.inl hk))) (fun hk => hn (Or.inr (Or.inr (List.isPrefixOf_iff_prefix.2 hk)))) ha hb2 h5⟩
            rw [h1, h3, hb1, h4]
            simp

theorem aitem_head {t : Str} {i : Option Str × Val} (h : AItem t i) : ∃ c q, t = c :: q ∧ isBlank c = false := by
  cases h with
  | value h =>
    obtain ⟨c, q, h1, h2, _⟩ := avalue_head h
    exact ⟨c, q, h1, h2⟩
  | @named k a b t v h1 _ _ _ _ _ _ =>
    have h' := h1
    obtain ⟨⟨c, q, rfl, _⟩, _⟩ := h'
    exact ⟨c, _, rfl, (start_digit (start_of_name h1)).2.2.2.2.1⟩

theorem after_end {c : Char} {b : Str} (h : ABlank b) : after c b = none := by
  unfold after
  rw [skip_nil h]

theorem items_complete {s : Str} {is : List (Option Str × Val)} (h : AItems s is) : ∀ n, s.length + 1 ≤ n → items n s = some is := by
  induction h with
  | @nil w hw =>
    intro n hn
    obtain ⟨m, rfl⟩ : ∃ m, n = m + 1 := ⟨n - 1, by omega⟩
    rw [items, if_pos (skip_nil hw)]
  | @last a t b i ha ht hb =>
    intro n hn
    obtain ⟨m, rfl⟩ : ∃ m, n = m + 1 := ⟨n - 1, by omega⟩
    obtain ⟨c, q, hc, hbl⟩ := aitem_head ht
    have e : skip (a ++ (t ++ b)) = t ++ b := by rw [skip_blank ha, hc, List.cons_append, skip_self hbl]
    rw [items, e, if_neg (by rw [hc]; simp), item_complete ht (ends_end hb) (after_end hb) (by simp at hn ⊢; omega)]
    simp only
    rw [if_pos (skip_nil hb)]
  | @more a t b s i is ha ht hb _ ih =>
    intro n hn
    obtain ⟨m, rfl⟩ : ∃ m, n = m + 1 := ⟨n - 1, by omega⟩
    obtain ⟨c, q, hc, hbl⟩ := aitem_head ht
    have e : skip (a ++ (t ++ (b ++ (',' :: s)))) = t ++ (b ++ (',' :: s)) := by rw [skip_blank ha, hc, List.cons_append, skip_self hbl]
    rw [items, e, if_neg (by rw [hc]; simp),
      item_complete ht (ends_sep hb (by decide) (by decide) (by decide) s) (after_other hb (by decide) (by decide) s) (by simp at hn ⊢; omega)]
    simp only
    rw [skip_blank hb, skip_self (by decide), if_neg (by simp), after_complete hb (by decide)]
    simp only
    rw [ih m (by simp at hn ⊢; omega)]
    rfl

theorem items_sound : ∀ (n : Nat) (s : Str) (is : List (Option Str × Val)), items n s = some is → AItems s is := by
  intro n
  induction n with
  | zero => intro s is h; cases h
  | succ n ih =>
    intro s is h
    rw [items] at h
    split at h
    · rename_i hs
      cases h
      exact .nil (blank_of_skip hs)
    · obtain ⟨a, ha1, ha2⟩ := skip_split s
      cases e : item (n + 1) (skip s) with
      | none => rw [e] at h; cases h
      | some p =>
        obtain ⟨i, r⟩ := p
        rw [e] at h
        simp only at h
        obtain ⟨t, h1, h2⟩ := item_sound e
        split at h
        · rename_i hr
          cases h
          rw [ha1, h1]
          exact .last ha2 h2 (blank_of_skip hr)
        · cases e2 : after ',' r with
          | none => rw [e2] at h; cases h
          | some r2 =>
            rw [e2] at h
            simp only at h
            obtain ⟨b, hb1, hb2⟩ := after_sound e2
            cases e3 : items n r2 with
            | none => rw [e3] at h; cases h
            | some js =>
              rw [e3] at h
              simp only [Option.map_some, Option.some.injEq] at h
              subst h
              rw [ha1, h1, hb2]
              exact .more ha2 h2 hb1 (ih _ _ e3)

theorem items_iff (s : Str) (is : List (Option Str × Val)) : items (s.length + 1) s = some is ↔ AItems s is :=
  ⟨items_sound _ _ _, fun h => items_complete h _ (Nat.le_refl _)⟩

/-! ## names of arguments -/

theorem distinct_iff (l : List Str) : distinct l = true ↔ l.Nodup := by
  induction l with
  | nil => simp [distinct]
  | cons n ns ih => rw [distinct, Bool.and_eq_true, decide_eq_true_eq, ih, List.nodup_cons]

theorem bind_iff (is : List (Option Str × Val)) (args : List Val) (kwargs : Dict Str Val) : bind is = some (args, kwargs) ↔ Ordered is args kwargs := by
  unfold bind Ordered
  constructor
  · intro h
    split at h
    · rename_i hc
      simp only [Option.some.injEq, Prod.mk.injEq] at h
      obtain ⟨rfl, rfl⟩ := h
      constructor
      · have e : is = is.takeWhile (fun i => i.1.isNone) ++ named is := (List.takeWhile_append_dropWhile).symm
        conv => lhs; rw [e]
        congr 1
        · rw [List.map_map]
          symm
          conv => rhs; rw [← List.map_id (is.takeWhile (fun i => i.1.isNone))]
          apply List.map_congr_left
          intro i hi
          have : i.1.isNone = true := by
            clear hc e
            induction is with
            | nil => cases hi
            | cons j js ih =>
              rw [List.takeWhile_cons] at hi
              split at hi
              · rcases List.mem_cons.1 hi with rfl | hi
                · assumption
                · exact ih hi
              · cases hi
          obtain ⟨o, v⟩ := i
          cases o with
          | none => rfl
          | some _ => cases this
        · rw [List.map_map]
          symm
          conv => rhs; rw [← List.map_id (named is)]
          apply List.map_congr_left
          intro i hi
          have := (List.all_eq_true.1 hc.1) i hi
          obtain ⟨o, v⟩ := i
          cases o with
          | none => cases this
          | some _ => rfl
      · have := (distinct_iff _).1 hc.2
        rw [List.map_map]
        exact this
    · cases h
  · rintro ⟨rfl, hnd⟩
    have e1 : (args.map (fun v => ((none : Option Str), v)) ++ kwargs.map (fun p => (some p.1, p.2))).takeWhile (fun i => i.1.isNone) = args.map (fun v => (none, v)) := by
      induction args with
      | nil =>
        cases kwargs with
        | nil => rfl
        | cons p ps => rfl
      | cons v vs ih => simp [ih]
    have e2 : named (args.map (fun v => ((none : Option Str), v)) ++ kwargs.map (fun p => (some p.1, p.2))) = kwargs.map (fun p => (some p.1, p.2)) := by
      unfold named
      clear e1
      induction args with
      | nil =>
        cases kwargs with
        | nil => rfl
        | cons p ps => rfl
      | cons v vs ih => simpa using ih
    rw [e1, e2]
    rw [if_pos]
    · rw [List.map_map, List.map_map]
      have h1 : args.map ((fun x : Option Str × Val => x.2) ∘ fun v => (none, v)) = args := by
        conv => rhs; rw [← List.map_id args]
        rfl
      have h2 : kwargs.map ((fun i : Option Str × Val => (i.1.getD [], i.2)) ∘ fun p => (some p.1, p.2)) = kwargs := by
        conv => rhs; rw [← List.map_id kwargs]
        rfl
      rw [h1, h2]
    · refine ⟨?_, (distinct_iff _).2 ?_⟩
      · rw [List.all_eq_true]
        intro i hi
        obtain ⟨p, _, rfl⟩ := List.mem_map.1 hi
        rfl
      · rw [List.map_map]
        exact hnd

theorem bind_none {is : List (Option Str × Val)} (h : ∀ a k, ¬ Ordered is a k) : bind is = none := by
  cases e : bind is with
  | none => rfl
  | some p => exact absurd ((bind_iff is p.1 p.2).1 e) (h p.1 p.2)

end Args
end TTP
