import Verif.Proofs.XmlText
/-!
# XML texts: references, attributes and the parts of a text
-/

namespace TTP.XmlText
open Py Spec

/-! ## References -/

theorem digit_hex (c : Char) (n : Nat) : digit true c = some n ↔ Hex1 c n := by
  have e : ∀ a b : Char, a ≤ b ↔ a.toNat ≤ b.toNat := fun a b => Iff.rfl
  have z : '0'.toNat = 48 := rfl
  have n9 : '9'.toNat = 57 := rfl
  have a : 'a'.toNat = 97 := rfl
  have f : 'f'.toNat = 102 := rfl
  have a2 : 'A'.toNat = 65 := rfl
  have f2 : 'F'.toNat = 70 := rfl
  unfold digit
  constructor
  · intro h
    split at h
    · rename_i h1; cases h; exact Hex1.digit c h1.1 h1.2
    · split at h
      · rename_i h1; cases h; exact Hex1.lower c h1.2.1 h1.2.2
      · split at h
        · rename_i h1; cases h; exact Hex1.upper c h1.2.1 h1.2.2
        · cases h
  · intro h
    cases h with
    | digit h1 h2 => rw [if_pos ⟨h1, h2⟩]
    | lower h1 h2 =>
      rw [e] at h1 h2
      rw [if_neg (by omega), if_pos ⟨rfl, h1, h2⟩]
    | upper h1 h2 =>
      rw [e] at h1 h2
      rw [if_neg (by omega), if_neg (by omega), if_pos ⟨rfl, h1, h2⟩]

theorem digit_dec (c : Char) (n : Nat) : digit false c = some n ↔ JDigit c ∧ n = c.toNat - 48 := by
  unfold digit JDigit
  constructor
  · intro h
    split at h
    · rename_i h1; cases h; exact ⟨h1, rfl⟩
    · simp at h
  · rintro ⟨h1, rfl⟩
    have h1' : '0'.toNat ≤ c.toNat ∧ c.toNat ≤ '9'.toNat := h1
    rw [if_pos h1']; rfl

theorem number_dec (ds : Str) (acc n : Nat) : number false acc ds = some n ↔ (∀ d ∈ ds, JDigit d) ∧ n = acc * 10 ^ ds.length + Spec.decimal ds := by
  induction ds generalizing acc with
  | nil => simp [number, Spec.decimal, eq_comm]
  | cons c ds ih =>
    rw [number]
    cases h : digit false c with
    | none =>
      constructor
      · intro e; cases e
      · rintro ⟨h1, -⟩
        have := (digit_dec c _).2 ⟨h1 c (by simp), rfl⟩
        rw [h] at this; cases this
    | some d =>
      obtain ⟨h1, rfl⟩ := (digit_dec c d).1 h
      dsimp only
      rw [ih]
      have e : ((acc * (if false = true then 16 else 10) + (c.toNat - 48)) * 10 ^ ds.length + Spec.decimal ds) =
          acc * 10 ^ (c :: ds).length + Spec.decimal (c :: ds) := by
        rw [if_neg (by simp), Spec.decimal, List.length_cons, Nat.pow_succ, Nat.add_mul, Nat.mul_assoc, Nat.mul_comm 10 _, Nat.add_assoc]
      rw [e]
      simp [h1]

theorem number_append (hex : Bool) (s t : Str) (acc : Nat) : number hex acc (s ++ t) = (number hex acc s).bind (fun m => number hex m t) := by
  induction s generalizing acc with
  | nil => rfl
  | cons c s ih =>
    rw [List.cons_append, number, number]
    cases digit hex c with
    | none => rfl
    | some d => exact ih _

theorem number_hex (hs : Str) (n : Nat) : (hs ≠ [] ∧ number true 0 hs = some n) ↔ Hexadecimal hs n := by
  constructor
  · rintro ⟨hne, h⟩
    have key : ∀ k (hs : Str) n, hs.length = k + 1 → number true 0 hs = some n → Hexadecimal hs n := by
      intro k
      induction k with
      | zero =>
        intro hs n hl h
        match hs, hl with
        | [c], _ =>
          rw [number] at h
          cases hd : digit true c with
          | none => rw [hd] at h; cases h
          | some d =>
            rw [hd] at h
            simp [number] at h
            subst h
            exact .one ((digit_hex c d).1 hd)
      | succ k ih =>
        intro hs n hl h
        rcases List.eq_nil_or_concat hs with rfl | ⟨s, c, rfl⟩
        · simp at hl
        · rw [List.concat_eq_append] at h hl ⊢
          rw [number_append] at h
          cases hm : number true 0 s with
          | none => rw [hm] at h; cases h
          | some m =>
            rw [hm, Option.bind_some, number] at h
            cases hd : digit true c with
            | none => rw [hd] at h; cases h
            | some d =>
              rw [hd] at h
              simp [number] at h
              subst h
              exact .snoc (ih s m (by simpa using hl) hm) ((digit_hex c d).1 hd)
    obtain ⟨c, r, rfl⟩ := List.exists_cons_of_ne_nil hne
    exact key _ _ _ rfl h
  · intro h
    induction h with
    | @one c n h1 =>
      refine ⟨by simp, ?_⟩
      rw [number, (digit_hex c n).2 h1]
      simp [number]
    | @snoc s c m n _ h2 ih =>
      refine ⟨by simp, ?_⟩
      rw [number_append, ih.2, Option.bind_some, number, (digit_hex c n).2 h2]
      simp [number]

theorem charOf_iff (n : Nat) (c : Char) : charOf n = some c ↔ n = c.toNat ∧ XChar c := by
  unfold charOf
  constructor
  · intro h
    split at h
    · rename_i h1
      cases h
      exact ⟨h1.1.symm, (isChar_iff _).1 h1.2⟩
    · cases h
  · rintro ⟨rfl, h⟩
    have e : Char.ofNat c.toNat = c := Char.ofNat_toNat c
    rw [e, if_pos ⟨rfl, (isChar_iff c).2 h⟩]

/-- characters of names of entities and of numbers -/
def isRefChar (c : Char) : Bool := decide (c ≠ ';' ∧ c ≠ '"' ∧ c ≠ '\'' ∧ c ≠ '<' ∧ c ≠ '>' ∧ c ≠ '&' ∧ c ≠ ' ')

theorem digit_ref {c : Char} (h : JDigit c) : isRefChar c = true := by
  have h1 : (48 : Nat) ≤ c.toNat := h.1
  have h2 : c.toNat ≤ 57 := h.2
  unfold isRefChar
  rw [decide_eq_true_iff]
  refine ⟨?_, ?_, ?_, ?_, ?_, ?_, ?_⟩ <;> (rintro rfl; revert h1 h2; decide)

theorem hex_ref {c : Char} {n : Nat} (h : Hex1 c n) : isRefChar c = true := by
  unfold isRefChar
  rw [decide_eq_true_iff]
  cases h <;> rename_i h1 h2 <;> (refine ⟨?_, ?_, ?_, ?_, ?_, ?_, ?_⟩ <;> (rintro rfl; revert h1 h2; decide))

theorem hexadecimal_ref {s : Str} {n : Nat} (h : Hexadecimal s n) : ∀ c ∈ s, isRefChar c = true := by
  induction h with
  | one h => intro c hc; simp at hc; subst hc; exact hex_ref h
  | snoc _ h ih =>
    intro c hc
    rcases List.mem_append.1 hc with hc | hc
    · exact ih c hc
    · simp at hc; subst hc; exact hex_ref h

theorem hexadecimal_ne {s : Str} {n : Nat} (h : Hexadecimal s n) : s ≠ [] := ((number_hex s n).2 h).1

theorem entities_get (b : Str) (c : Char) : Dict.get? entities b = some c ↔ (b, c) ∈ xmlNames := by
  have e : entities = xmlNames := rfl
  rw [e]
  constructor
  · exact Dict.mem_of_get? _ _ _
  · intro h
    simp only [xmlNames, List.mem_cons, Prod.mk.injEq, List.not_mem_nil, or_false] at h
    rcases h with ⟨rfl, rfl⟩ | ⟨rfl, rfl⟩ | ⟨rfl, rfl⟩ | ⟨rfl, rfl⟩ | ⟨rfl, rfl⟩ <;> decide

/-- the text of a reference without `&` and `;` -/
inductive RefBody : Str → Char → Prop
  | named {n : Str} {c : Char} : (n, c) ∈ xmlNames → RefBody n c
  | decimal {ds : Str} {c : Char} : ds ≠ [] → (∀ d ∈ ds, JDigit d) → Spec.decimal ds = c.toNat → XChar c → RefBody ('#' :: ds) c
  | hex {hs : Str} {c : Char} : Hexadecimal hs c.toNat → XChar c → RefBody ('#' :: 'x' :: hs) c

theorem xref_iff (r : Str) (c : Char) : XRef r c ↔ ∃ b, r = '&' :: (b ++ [';']) ∧ RefBody b c := by
  constructor
  · intro h
    cases h with
    | named h => exact ⟨_, rfl, .named h⟩
    | decimal h1 h2 h3 h4 => exact ⟨_, rfl, .decimal h1 h2 h3 h4⟩
    | hex h1 h2 => exact ⟨_, rfl, .hex h1 h2⟩
  · rintro ⟨b, rfl, h⟩
    cases h with
    | named h => exact .named h
    | decimal h1 h2 h3 h4 => exact .decimal h1 h2 h3 h4
    | hex h1 h2 => exact .hex h1 h2

theorem names_ref : ∀ p ∈ xmlNames, ∀ c ∈ p.1, isRefChar c = true ∧ c ≠ '#' := by decide

theorem body_ref {b : Str} {c : Char} (h : RefBody b c) : ∀ d ∈ b, isRefChar d = true := by
  cases h with
  | named h => exact fun d hd => (names_ref _ h d hd).1
  | decimal _ h2 _ _ =>
    intro d hd
    rcases List.mem_cons.1 hd with rfl | hd
    · decide
    · exact digit_ref (h2 d hd)
  | hex h1 _ =>
    intro d hd
    rcases List.mem_cons.1 hd with rfl | hd
    · decide
    · rcases List.mem_cons.1 hd with rfl | hd
      · decide
      · exact hexadecimal_ref h1 d hd

theorem names_get_none (b : Str) : Dict.get? entities ('#' :: b) = none := by
  rw [Dict.get?_eq_none_iff]
  intro h
  have : ∀ k ∈ Dict.keys entities, ∀ c ∈ k, c ≠ '#' := by decide
  exact this _ h '#' (by simp) rfl

theorem refChar_iff (b : Str) (c : Char) : refChar b = some c ↔ RefBody b c := by
  unfold refChar
  constructor
  · intro h
    cases hg : Dict.get? entities b with
    | some d =>
      rw [hg] at h
      cases h
      exact .named ((entities_get b c).1 hg)
    | none =>
      rw [hg] at h
      dsimp only at h
      split at h
      · cases h
      · rename_i d s
        split at h
        · rename_i hd
          subst hd
          cases s with
          | nil => cases h
          | cons d s =>
            rw [numRef] at h
            split at h
            · rename_i hd
              subst hd
              split at h
              · cases h
              · rename_i hne
                rw [Option.bind_eq_some_iff] at h
                obtain ⟨n, h1, h2⟩ := h
                obtain ⟨rfl, hx⟩ := (charOf_iff n c).1 h2
                exact .hex ((number_hex _ _).1 ⟨by intro e; rw [e] at hne; simp at hne, h1⟩) hx
            · rw [Option.bind_eq_some_iff] at h
              obtain ⟨n, h1, h2⟩ := h
              obtain ⟨rfl, hx⟩ := (charOf_iff n c).1 h2
              rw [number_dec] at h1
              exact .decimal (by simp) h1.1 (by rw [h1.2]; simp) hx
        · cases h
  · intro h
    cases h with
    | named h => rw [(entities_get b c).2 h]
    | @decimal ds _ h1 h2 h3 h4 =>
      rw [names_get_none]
      obtain ⟨d, s, rfl⟩ := List.exists_cons_of_ne_nil h1
      have hx : d ≠ 'x' := by rintro rfl; have := h2 'x' (by simp); revert this; unfold JDigit; decide
      have hn : number false 0 (d :: s) = some c.toNat := (number_dec _ _ _).2 ⟨h2, by simp [h3]⟩
      dsimp only
      rw [if_pos rfl, numRef, if_neg hx, hn, Option.bind_some, (charOf_iff _ _).2 ⟨rfl, h4⟩]
    | @hex hs _ h1 h2 =>
      rw [names_get_none]
      obtain ⟨hne, hn⟩ := (number_hex _ _).2 h1
      dsimp only
      rw [if_pos rfl, numRef, if_pos rfl, if_neg (by cases hs with | nil => exact absurd rfl hne | cons _ _ => simp), hn, Option.bind_some,
        (charOf_iff _ _).2 ⟨rfl, h2⟩]

theorem reference_sound {s r : Str} {c : Char} (h : reference s = some (c, r)) : ∃ b, '&' :: s = b ++ r ∧ XRef b c := by
  unfold reference at h
  obtain ⟨h1, h2⟩ := dropWhile_split (fun c => decide (c ≠ ';')) s
  have h3 := dropWhile_notFirst (fun c => decide (c ≠ ';')) s
  split at h
  · cases h
  · rename_i d r' e
    rw [Option.map_eq_some_iff] at h
    obtain ⟨c', h4, h5⟩ := h
    simp only [Prod.mk.injEq] at h5
    obtain ⟨rfl, rfl⟩ := h5
    have hd : d = ';' := by
      have := h3 d r' e
      simpa using this
    subst hd
    refine ⟨'&' :: (s.takeWhile (fun c => decide (c ≠ ';')) ++ [';']), ?_, (xref_iff _ _).2 ⟨_, rfl, (refChar_iff _ _).1 h4⟩⟩
    conv => lhs; rw [h1, e]
    simp

theorem reference_complete {b r : Str} {c : Char} (h : XRef b c) : ∃ t, b = '&' :: t ∧ reference (t ++ r) = some (c, r) := by
  obtain ⟨b, rfl, hb⟩ := (xref_iff _ _).1 h
  refine ⟨b ++ [';'], rfl, ?_⟩
  have h1 : ∀ d ∈ b, (fun c => decide (c ≠ ';')) d = true := by
    intro d hd
    have := body_ref hb d hd
    unfold isRefChar at this
    simp at this
    simp [this.1]
  have h2 : NotFirst (fun c => decide (c ≠ ';')) (';' :: r) := notFirst_cons (by simp)
  unfold reference
  rw [List.append_assoc, List.singleton_append, takeWhile_all h1 h2, dropWhile_all h1 h2]
  dsimp only
  rw [(refChar_iff _ _).2 hb]
  rfl

theorem reference_shrinks {s r : Str} {c : Char} (h : reference s = some (c, r)) : r.length ≤ s.length := by
  obtain ⟨b, h1, h2⟩ := reference_sound h
  obtain ⟨b', rfl, _⟩ := (xref_iff _ _).1 h2
  have := congrArg List.length h1
  simp at this
  omega

/-! ## Values of attributes -/

theorem valueStep_shrinks (s : Str) (a : Char) (r : Str) (h : valueStep s = some (a, r)) : r.length < s.length := by
  cases s with
  | nil => cases h
  | cons c s =>
    rw [valueStep] at h
    split at h
    · have := reference_shrinks h; simp; omega
    · split at h
      · cases h
      · split at h <;> (cases h; simp)

theorem value_sound {q : Char} {t v : Str} (h : Steps valueStep t v) (hq : ∀ c ∈ t, c ≠ q) : XValue q t v := by
  induction h with
  | nil => exact .nil
  | @cons s r a as h1 _ ih =>
    cases s with
    | nil => cases h1
    | cons c s =>
      rw [valueStep] at h1
      split at h1
      · rename_i hc
        subst hc
        obtain ⟨b, h2, h3⟩ := reference_sound h1
        rw [h2] at hq ⊢
        exact .ref h3 (ih (fun d hd => hq d (by simp [hd])))
      · rename_i hc
        split at h1
        · cases h1
        · rename_i hc2
          split at h1
          · rename_i hw
            cases h1
            exact .blank c ((isWs_iff c).1 hw) (ih (fun d hd => hq d (by simp [hd])))
          · rename_i hw
            simp only [Option.some.injEq, Prod.mk.injEq] at h1
            obtain ⟨rfl, rfl⟩ := h1
            exact .plain c (fun e => hw ((isWs_iff c).2 e)) (hq c (by simp)) hc2 hc (ih (fun d hd => hq d (by simp [hd])))

theorem xref_chars {b : Str} {c : Char} (h : XRef b c) : ∀ d ∈ b, d ≠ '"' ∧ d ≠ '\'' := by
  obtain ⟨b, rfl, hb⟩ := (xref_iff _ _).1 h
  intro d hd
  rcases List.mem_cons.1 hd with rfl | hd
  · decide
  · rcases List.mem_append.1 hd with hd | hd
    · have := body_ref hb d hd
      unfold isRefChar at this
      simp at this
      exact ⟨this.2.1, this.2.2.1⟩
    · simp at hd; subst hd; decide

theorem value_complete {q : Char} (hq : q = '"' ∨ q = '\'') {t v : Str} (h : XValue q t v) : Steps valueStep t v ∧ ∀ c ∈ t, c ≠ q := by
  induction h with
  | nil => exact ⟨.nil, by simp⟩
  | @blank c t v hb _ ih =>
    have hw := (isWs_or c).1 ((isWs_iff c).2 hb)
    refine ⟨.cons ?_ ih.1, ?_⟩
    · rw [valueStep, if_neg (by rcases hw with rfl | rfl | rfl <;> decide), if_neg (by rcases hw with rfl | rfl | rfl <;> decide),
        if_pos ((isWs_iff c).2 hb)]
    · intro d hd
      rcases List.mem_cons.1 hd with rfl | hd
      · rcases hw with rfl | rfl | rfl <;> rcases hq with rfl | rfl <;> decide
      · exact ih.2 d hd
  | @plain c t v hb h1 h2 h3 _ ih =>
    refine ⟨.cons ?_ ih.1, ?_⟩
    · rw [valueStep, if_neg h3, if_neg h2, if_neg (fun e => hb ((isWs_iff c).1 e))]
    · intro d hd
      rcases List.mem_cons.1 hd with rfl | hd
      · exact h1
      · exact ih.2 d hd
  | @ref r c t v hr _ ih =>
    obtain ⟨r', rfl, h1⟩ := reference_complete (r := t) hr
    refine ⟨.cons ?_ ih.1, ?_⟩
    · rw [List.cons_append, valueStep, if_pos rfl, h1]
    · intro d hd
      rcases List.mem_append.1 hd with hd | hd
      · have := xref_chars hr d hd
        rcases hq with rfl | rfl
        · exact this.1
        · exact this.2
      · exact ih.2 d hd

/-! ## Attributes -/

theorem quote_notWs {q : Char} (hq : q = '"' ∨ q = '\'') : isWs q = false := by rcases hq with rfl | rfl <;> decide

theorem ws_notName {c : Char} (h : isWs c = true) : isNameChar c = false := by
  rcases (isWs_or c).1 h with rfl | rfl | rfl <;> decide

theorem blank_notName {w r : Str} (hw : XBlank w) (hr : NotFirst isNameChar r) : NotFirst isNameChar (w ++ r) := by
  cases w with
  | nil => exact hr
  | cons c w => exact notFirst_cons (ws_notName ((isWs_iff c).2 (blank_cons hw).1))

/-- one attribute -/
inductive XAttr : Str → Str × Str → Prop
  | mk {n a b t v : Str} {q : Char} : XName n → XBlank a → XBlank b → (q = '"' ∨ q = '\'') → XValue q t v →
      XAttr (n ++ (a ++ ('=' :: (b ++ (q :: (t ++ [q])))))) (n, v)

theorem after_iff (c : Char) (s r : Str) : after c s = some r ↔ s = c :: r := by
  cases s with
  | nil => simp [after]
  | cons d s =>
    rw [after]
    by_cases h : d = c
    · subst h; simp
    · simp [h]

theorem quoted_complete {q : Char} (hq : q = '"' ∨ q = '\'') {t v : Str} (hv : XValue q t v) (r : Str) :
    quotedValue (q :: (t ++ (q :: r))) = some (v, r) := by
  obtain ⟨h1, h2⟩ := value_complete hq hv
  have h3 : ∀ c ∈ t, (fun c => decide (c ≠ q)) c = true := by
    intro c hc; simpa using h2 c hc
  have h4 : NotFirst (fun c => decide (c ≠ q)) (q :: r) := notFirst_cons (by simp)
  rw [quotedValue, if_pos hq, dropWhile_all h3 h4, takeWhile_all h3 h4]
  dsimp only
  rw [many_complete valueStep_shrinks h1 (Nat.le_refl _)]
  rfl

theorem quoted_sound {s v r : Str} (h : quotedValue s = some (v, r)) :
    ∃ q t, s = q :: (t ++ (q :: r)) ∧ (q = '"' ∨ q = '\'') ∧ XValue q t v := by
  cases s with
  | nil => cases h
  | cons q r2 =>
    rw [quotedValue] at h
    split at h
    · rename_i hq
      obtain ⟨h1, h2⟩ := dropWhile_split (fun c => decide (c ≠ q)) r2
      have h3 := dropWhile_notFirst (fun c => decide (c ≠ q)) r2
      split at h
      · cases h
      · rename_i d r3 e3
        rw [Option.map_eq_some_iff] at h
        obtain ⟨v', h4, h5⟩ := h
        simp only [Prod.mk.injEq] at h5
        obtain ⟨rfl, rfl⟩ := h5
        have hd : d = q := by simpa using h3 d r3 e3
        subst hd
        refine ⟨d, _, ?_, hq, value_sound (many_sound h4) ?_⟩
        · conv => lhs; rw [h1, e3]
        · intro c hc
          simpa using h2 c hc
    · cases h

theorem attr_complete {t : Str} {p : Str × Str} (h : XAttr t p) (r : Str) : attr (t ++ r) = some (p, r) := by
  cases h with
  | @mk n a b t v q hn ha hb hq hv =>
    have e : n ++ (a ++ ('=' :: (b ++ (q :: (t ++ [q]))))) ++ r = n ++ (a ++ ('=' :: (b ++ (q :: (t ++ (q :: r)))))) := by simp
    rw [e]
    unfold attr
    rw [name_complete hn (blank_notName ha (notFirst_cons (by decide)))]
    dsimp only
    rw [skipWs_blank ha (notFirst_cons (by decide)), (after_iff _ _ _).2 rfl, Option.bind_some, skipWs_blank hb (notFirst_cons (quote_notWs hq)),
      quoted_complete hq hv]
    rfl

theorem attr_sound {s r : Str} {p : Str × Str} (h : attr s = some (p, r)) : ∃ t, s = t ++ r ∧ XAttr t p := by
  unfold attr at h
  cases hn : name s with
  | none => rw [hn] at h; cases h
  | some x =>
    obtain ⟨n, r0⟩ := x
    rw [hn] at h
    dsimp only at h
    obtain ⟨rfl, hx, _⟩ := name_sound hn
    obtain ⟨a, ha, hab, _⟩ := skipWs_split r0
    rw [Option.bind_eq_some_iff] at h
    obtain ⟨r1, h1, h2⟩ := h
    rw [after_iff] at h1
    rw [Option.map_eq_some_iff] at h2
    obtain ⟨⟨v, r3⟩, h3, h4⟩ := h2
    simp only [Prod.mk.injEq] at h4
    obtain ⟨rfl, rfl⟩ := h4
    obtain ⟨q, t, h5, hq, hv⟩ := quoted_sound h3
    obtain ⟨b, hb, hbb, _⟩ := skipWs_split r1
    refine ⟨_, ?_, .mk hx hab hbb hq hv⟩
    rw [ha, h1, hb, h5]
    simp

theorem attr_head {t : Str} {p : Str × Str} (h : XAttr t p) : ∃ c r, t = c :: r ∧ isNameStart c = true := by
  cases h with
  | mk hn _ _ _ _ =>
    obtain ⟨c, r, rfl, h⟩ := name_head hn
    exact ⟨c, _, rfl, h⟩

theorem xattrs_cons {w t s : Str} {p : Str × Str} {as : List (Str × Str)} (hw : XBlank w) (hne : w ≠ []) (ht : XAttr t p) (hs : XAttrs s as) :
    XAttrs (w ++ (t ++ s)) (p :: as) := by
  cases ht with
  | @mk n a b t v q hn ha hb hq hv =>
    have := XAttrs.cons hw hne hn ha hb hq hv hs
    have e : w ++ (n ++ (a ++ '=' :: (b ++ q :: (t ++ [q]))) ++ s) = w ++ (n ++ (a ++ ('=' :: (b ++ (q :: (t ++ (q :: s))))))) := by simp
    rw [e]; exact this

theorem xattrs_cases {t : Str} {as : List (Str × Str)} (h : XAttrs t as) : (t = [] ∧ as = []) ∨
    ∃ w u s p as', t = w ++ (u ++ s) ∧ as = p :: as' ∧ XBlank w ∧ w ≠ [] ∧ XAttr u p ∧ XAttrs s as' := by
  cases h with
  | nil => exact Or.inl ⟨rfl, rfl⟩
  | @cons w n a b t s v q as' hw hne hn ha hb hq hv hs =>
    exact Or.inr ⟨w, _, s, (n, v), as', by simp, rfl, hw, hne, .mk hn ha hb hq hv, hs⟩

theorem start_ne {c : Char} (h : isNameStart c = true) : c ≠ '>' ∧ c ≠ '/' ∧ isWs c = false := by
  refine ⟨?_, ?_, ?_⟩
  · rintro rfl; revert h; decide
  · rintro rfl; revert h; decide
  · cases hw : isWs c with
    | false => rfl
    | true =>
      rcases (isWs_or c).1 hw with rfl | rfl | rfl <;> (revert h; decide)

theorem attrs_complete {t : Str} {as : List (Str × Str)} (h : XAttrs t as) (w r : Str) (hw : XBlank w) (c : Char) (hc : c = '>' ∨ c = '/') (n : Nat)
    (hn : (t ++ (w ++ c :: r)).length ≤ n) : attrs n (t ++ (w ++ c :: r)) = some (as, c :: r) := by
  induction n generalizing t as with
  | zero => simp at hn
  | succ n ih =>
    have hcw : isWs c = false := by rcases hc with rfl | rfl <;> decide
    rcases xattrs_cases h with ⟨rfl, rfl⟩ | ⟨w', u, s, p, as', rfl, rfl, hw', hne, hu, hs⟩
    · rw [List.nil_append, attrs, skipWs_blank hw (notFirst_cons hcw)]
      dsimp only
      rw [if_pos hc]
    · obtain ⟨d, u', rfl, hd⟩ := attr_head hu
      obtain ⟨h1, h2, h3⟩ := start_ne hd
      have e : w' ++ (d :: u' ++ s) ++ (w ++ c :: r) = w' ++ (d :: (u' ++ (s ++ (w ++ c :: r)))) := by simp
      rw [e]
      have e2 := skipWs_blank (r := d :: (u' ++ (s ++ (w ++ c :: r)))) hw' (notFirst_cons h3)
      have e3 := skipWs_ne (s := d :: (u' ++ (s ++ (w ++ c :: r)))) hw' hne
      rw [attrs, e2] at *
      dsimp only
      rw [if_neg (by simp [h1, h2]), if_neg e3]
      have e4 : d :: (u' ++ (s ++ (w ++ c :: r))) = (d :: u') ++ (s ++ (w ++ c :: r)) := by simp
      rw [e4, attr_complete hu]
      dsimp only
      rw [ih hs (by simp at hn ⊢; have := List.length_pos_iff.2 hne; omega)]
      rfl

theorem attrs_sound {n : Nat} {s r : Str} {as : List (Str × Str)} (h : attrs n s = some (as, r)) :
    ∃ t w, s = t ++ (w ++ r) ∧ XAttrs t as ∧ XBlank w ∧ ∃ c u, r = c :: u ∧ (c = '>' ∨ c = '/') := by
  induction n generalizing s as with
  | zero => cases h
  | succ n ih =>
    rw [attrs] at h
    obtain ⟨w, hw1, hw2, _⟩ := skipWs_split s
    split at h
    · cases h
    · rename_i c u e
      split at h
      · rename_i hc
        simp only [Option.some.injEq, Prod.mk.injEq] at h
        obtain ⟨rfl, rfl⟩ := h
        exact ⟨[], w, by rw [hw1, e]; rfl, .nil, hw2, c, u, rfl, hc⟩
      · split at h
        · cases h
        · rename_i hne
          split at h
          · cases h
          · rename_i a r1 e1
            rw [Option.map_eq_some_iff] at h
            obtain ⟨⟨as', r'⟩, h1, h2⟩ := h
            simp only [Prod.mk.injEq] at h2
            obtain ⟨rfl, rfl⟩ := h2
            obtain ⟨t1, h3, h4⟩ := attr_sound e1
            obtain ⟨t, w', h5, h6, h7, h8⟩ := ih h1
            have hw0 : w ≠ [] := by
              rintro rfl
              exact hne hw1.symm
            refine ⟨w ++ (t1 ++ t), w', ?_, xattrs_cons hw2 hw0 h4 h6, h7, h8⟩
            rw [hw1, e, h3, h5]
            simp

end TTP.XmlText
