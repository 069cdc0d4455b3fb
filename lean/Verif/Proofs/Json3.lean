import Verif.Proofs.Json2
import Verif.Proofs.Format
/-!
# JSON texts: the writer
-/

namespace TTP.Json
open Py Spec

/-! ## Scalars -/

theorem hex1_hexChar (d : Nat) (h : d < 16) : Hex1 (hexChar d) d := by
  rw [← hexVal_iff]
  revert d
  decide

theorem codeUnit_hex (n : Nat) (h : n < 65536) : ∃ q, codeUnit n = '\\' :: 'u' :: q ∧ Hex4 q n := by
  refine ⟨_, rfl, ?_⟩
  have := Hex4.mk (hex1_hexChar (n / 4096 % 16) (by omega)) (hex1_hexChar (n / 256 % 16) (by omega)) (hex1_hexChar (n / 16 % 16) (by omega))
    (hex1_hexChar (n % 16) (by omega))
  have e : n / 4096 % 16 * 4096 + n / 256 % 16 * 256 + n / 16 % 16 * 16 + n % 16 = n := by omega
  rwa [e] at this

theorem char_of_toNat {c : Char} {n : Nat} (h : c.toNat = n) : c = Char.ofNat n := (ofNat_toNat_eq c n h).symm

theorem escaped_chars (c : Char) {t y : Str} (h : JChars t y) : JChars (escaped c ++ t) (c :: y) := by
  unfold escaped
  split
  · rename_i hc; subst hc; exact JChars.short _ _ (by decide) h
  split
  · rename_i hc; subst hc; exact JChars.short _ _ (by decide) h
  split
  · rename_i hc; rw [char_of_toNat hc]; exact JChars.short _ _ (by decide) h
  split
  · rename_i hc; rw [char_of_toNat hc]; exact JChars.short _ _ (by decide) h
  split
  · rename_i hc; rw [char_of_toNat hc]; exact JChars.short _ _ (by decide) h
  split
  · rename_i hc; rw [char_of_toNat hc]; exact JChars.short _ _ (by decide) h
  split
  · rename_i hc; rw [char_of_toNat hc]; exact JChars.short _ _ (by decide) h
  split
  · rename_i h1 h2 _ _ _ _ _ h3; exact JChars.plain c h3.1 h1 h2 h
  split
  · rename_i h3
    obtain ⟨q, e, hq⟩ := codeUnit_hex c.toNat h3
    rw [e]
    exact JChars.unit c hq h
  · rename_i h3
    have hv := toNat_valid c
    obtain ⟨q, e, hq⟩ := codeUnit_hex (55296 + (c.toNat - 65536) / 1024 % 1024) (by omega)
    obtain ⟨q', e', hq'⟩ := codeUnit_hex (56320 + (c.toNat - 65536) % 1024) (by omega)
    rw [e, e']
    have := JChars.pair (c := c) hq hq' (by omega) (by omega) (by omega) (by omega) (by omega) h
    simpa using this

theorem quoted_ok (s : Str) : JQuoted (quoted s) s := by
  refine ⟨s.flatMap escaped, rfl, ?_⟩
  induction s with
  | nil => exact JChars.nil
  | cons c s ih => rw [List.flatMap_cons]; exact escaped_chars c ih

theorem natStrAux_head (fuel n : Nat) (acc : Str) (h0 : n ≠ 0) (hf : n < fuel) : ∃ c cs, natStrAux fuel n acc = c :: cs ∧ c ≠ '0' := by
  induction fuel generalizing n acc with
  | zero => omega
  | succ fuel ih =>
    unfold natStrAux
    split
    · rename_i hn
      refine ⟨digitChar n, acc, rfl, ?_⟩
      have : ∀ n < 10, n ≠ 0 → digitChar n ≠ '0' := by decide
      exact this n hn h0
    · exact ih (n / 10) _ (by omega) (by omega)

theorem natStr_intDigits (n : Nat) : IntDigits (natStr n) := by
  by_cases h : n = 0
  · subst h; exact Or.inl rfl
  · obtain ⟨c, cs, e, hc⟩ := natStrAux_head (n + 1) n [] h (by omega)
    have hd := natStr_digits n
    unfold natStr at *
    rw [e] at hd ⊢
    rw [List.all_eq_true] at hd
    exact Or.inr ⟨c, cs, rfl, hc, (digit_iff c).1 (hd c (by simp)), fun d h => (digit_iff d).1 (hd d (by simp [h]))⟩

theorem intStr_text (fl : Str → Str) (n : Int) : JText fl (intStr n) (.int n) := by
  cases n with
  | ofNat n =>
    have := JText.int (fl := fl) (natStr_intDigits n)
    rw [← natOfDigits_decimal, natStr_val] at this
    exact this
  | negSucc n =>
    have := JText.negInt (fl := fl) (natStr_intDigits (n + 1))
    rw [← natOfDigits_decimal, natStr_val] at this
    exact this

theorem floatText_text (fl : Str → Str) (t : Str) (h : FloatRepr fl t) : JText fl (floatText t) (.flt t) := by
  unfold floatText
  split
  · rename_i e; rw [e]; exact JText.nan
  split
  · rename_i e; rw [e]; exact JText.inf
  split
  · rename_i e; rw [e]; exact JText.negInf
  · rename_i h1 h2 h3
    rcases h with h | h | h | ⟨h0, sg, ds, f, e, rfl, hs, hd, hf, he, hn⟩
    · exact absurd h h1
    · exact absurd h h2
    · exact absurd h h3
    · have := JText.flt (fl := fl) hs hd hf he hn
      rwa [h0] at this

/-! ## Lists and dictionaries -/

theorem newline_blank (st : Style) (n : Nat) : JBlank (newline st n) := by
  unfold newline
  split
  · exact blank_nil
  · intro c hc
    rcases List.mem_cons.1 hc with rfl | hc
    · simp
    · exact Or.inl (List.eq_of_mem_replicate hc)

theorem afterComma_blank (st : Style) (n : Nat) : JBlank (afterComma st n) := by
  unfold afterComma
  split
  · intro c hc; simp at hc; exact Or.inl hc
  · intro c hc
    rcases List.mem_cons.1 hc with rfl | hc
    · simp
    · exact Or.inl (List.eq_of_mem_replicate hc)

theorem items_join (fl : Str → Str) {c b : Str} (hc : JBlank c) (hb : JBlank b) : ∀ (ps : List (Str × Val)) (p : Str × Val) (a : Str), JBlank a →
    (∀ q ∈ p :: ps, JText fl q.1 q.2) →
    JItems fl (a ++ (join (',' :: c) ((p :: ps).map Prod.fst) ++ b)) ((p :: ps).map Prod.snd)
  | [], p, a, ha, h => JItems.one ha (h p (by simp)) hb
  | q :: ps, p, a, ha, h => by
    have ih := items_join fl hc hb ps q c hc (fun r hr => h r (by simp at hr ⊢; exact Or.inr hr))
    have := JItems.cons ha (h p (by simp)) blank_nil ih
    simp only [List.map_cons, join] at this ⊢
    simpa using this

/-- the text of an item of a dictionary with its name and value -/
structure Mem where
  key : Key
  text : Str
  val : Val

theorem members_join (fl : Str → Str) {c b : Str} (hc : JBlank c) (hb : JBlank b) : ∀ (ps : List Mem) (p : Mem) (a : Str), JBlank a →
    (∀ q ∈ p :: ps, JText fl q.text q.val) →
    JMembers fl (a ++ (join (',' :: c) ((p :: ps).map (fun q => member (q.key, q.text))) ++ b)) ((p :: ps).map (fun q => (keyText q.key, q.val)))
  | [], p, a, ha, h => by
    have sp : JBlank [' '] := fun c hc => Or.inl (by simpa using hc)
    have := JMembers.one ha (quoted_ok (keyText p.key)) blank_nil sp (h p (by simp)) hb
    simpa [member, join] using this
  | q :: ps, p, a, ha, h => by
    have sp : JBlank [' '] := fun c hc => Or.inl (by simpa using hc)
    have ih := members_join fl hc hb ps q c hc (fun r hr => h r (by simp at hr ⊢; exact Or.inr hr))
    have := JMembers.cons ha (quoted_ok (keyText p.key)) blank_nil sp (h p (by simp)) blank_nil ih
    simp only [List.map_cons, join] at this ⊢
    simpa [member] using this

theorem bracket_list (fl : Str → Str) (st : Style) (level : Nat) (ps : List (Str × Val)) (h : ∀ q ∈ ps, JText fl q.1 q.2) :
    JText fl (bracket st level '[' ']' (ps.map Prod.fst)) (.list (ps.map Prod.snd)) := by
  cases ps with
  | nil => exact JText.emptyList blank_nil
  | cons p ps =>
    have := JText.list (items_join fl (afterComma_blank st (level + 1)) (newline_blank st level) ps p (newline st (level + 1)) (newline_blank _ _) h)
    simpa [bracket] using this

theorem bracket_dict (fl : Str → Str) (st : Style) (level : Nat) (ps : List Mem) (h : ∀ q ∈ ps, JText fl q.text q.val) :
    JText fl (bracket st level '{' '}' (ps.map (fun q => member (q.key, q.text)))) (.dict (ofMembers (ps.map (fun q => (keyText q.key, q.val))))) := by
  cases ps with
  | nil => exact JText.emptyDict blank_nil
  | cons p ps =>
    have := JText.dict (members_join fl (afterComma_blank st (level + 1)) (newline_blank st level) ps p (newline st (level + 1)) (newline_blank _ _) h)
    simpa [bracket] using this

/-! ## Order -/

theorem insertSorted_map {α β : Type} (f : α → β) (le : α → α → Bool) (le' : β → β → Bool) (h : ∀ a b, le' (f a) (f b) = le a b) (x : α) (l : List α) :
    insertSorted le' (f x) (l.map f) = (insertSorted le x l).map f := by
  induction l with
  | nil => rfl
  | cons y l ih =>
    rw [List.map_cons, insertSorted, insertSorted, h]
    split
    · rfl
    · rw [ih]; rfl

theorem sorted_map {α β : Type} (f : α → β) (le : α → α → Bool) (le' : β → β → Bool) (h : ∀ a b, le' (f a) (f b) = le a b) (l : List α) :
    sorted le' (l.map f) = (sorted le l).map f := by
  induction l with
  | nil => rfl
  | cons x l ih =>
    show insertSorted le' (f x) (sorted le' (l.map f)) = _
    rw [ih, insertSorted_map f le le' h]; rfl

/-- the order of items with their values -/
def orderMems (st : Style) (ps : List Mem) : List Mem := if st.sort then sorted (fun a b => keyLe a.key b.key) ps else ps

theorem oneKind_iff (ks : List Key) : (Format.intKeys ks = [] ∨ Format.strKeys ks = []) ↔ OneKindKeys ks := by
  unfold Format.intKeys Format.strKeys OneKindKeys
  rw [List.filterMap_eq_nil_iff, List.filterMap_eq_nil_iff]
  constructor
  · rintro (h | h)
    · left; intro k hk
      cases k with
      | s x => exact ⟨x, rfl⟩
      | i n => exact absurd (h _ hk) (by simp)
    · right; intro k hk
      cases k with
      | i n => exact ⟨n, rfl⟩
      | s x => exact absurd (h _ hk) (by simp)
  · rintro (h | h)
    · left; intro k hk; obtain ⟨s, rfl⟩ := h k hk; rfl
    · right; intro k hk; obtain ⟨s, rfl⟩ := h k hk; rfl

theorem order_ok_iff {α : Type} (st : Style) (ps qs : List (Key × α)) : order st ps = .ok qs ↔
    (st.sort = true → OneKindKeys (ps.map Prod.fst)) ∧ qs = if st.sort then sorted (fun a b => keyLe a.1 b.1) ps else ps := by
  unfold order sortItems
  rw [← oneKind_iff]
  cases st.sort with
  | false => simp only [Bool.false_eq_true, if_false]; exact ⟨fun h => ⟨fun e => (by cases e), by cases h; rfl⟩, fun h => by rw [h.2]; rfl⟩
  | true =>
    simp only [if_true, true_implies]
    split
    · rename_i hk
      exact ⟨fun h => ⟨hk, by cases h; rfl⟩, fun h => by rw [h.2]; rfl⟩
    · rename_i hk
      exact ⟨fun h => (by cases h), fun h => absurd h.1 hk⟩

theorem order_mems (st : Style) (ps : List Mem) (qs : List (Key × Str)) (h : order st (ps.map (fun q => (q.key, q.text))) = .ok qs) :
    qs = (orderMems st ps).map (fun q => (q.key, q.text)) ∧ (st.sort = true → OneKindKeys (ps.map Mem.key)) := by
  rw [order_ok_iff] at h
  obtain ⟨h1, rfl⟩ := h
  constructor
  · unfold orderMems
    split
    · exact sorted_map _ _ _ (fun _ _ => rfl) _
    · rfl
  · simpa [List.map_map, Function.comp_def] using h1

theorem orderMems_perm (st : Style) (ps : List Mem) : (orderMems st ps).Perm ps := by
  unfold orderMems
  split
  · exact Format.sorted_perm _ _
  · exact List.Perm.refl _

/-! ## All data -/

/-- what the relation between data and what is read must satisfy -/
structure Closed (st : Style) (R : Val → Val → Prop) : Prop where
  none : R .none .none
  bool : ∀ b, R (.bool b) (.bool b)
  int : ∀ n, R (.int n) (.int n)
  flt : ∀ t, R (.flt t) (.flt t)
  str : ∀ s, R (.str s) (.str s)
  list : ∀ xs ys, All2 R xs ys → R (.list xs) (.list ys)
  dict : ∀ (kvs : Dict Key Val) (ps : List Mem), Dict.WF kvs → All2 (fun kv p => p.key = kv.1 ∧ R kv.2 p.val) kvs ps →
    (st.sort = true → OneKindKeys (ps.map Mem.key)) → R (.dict kvs) (.dict (ofMembers ((orderMems st ps).map (fun q => (keyText q.key, q.val)))))

mutual
theorem dump_text {fl : Str → Str} {st : Style} {R : Val → Val → Prop} (hR : Closed st R) : ∀ (v : Val) (level : Nat) (t : Str),
    dump st level v = .ok t → DeepWF v → FloatsOk fl v → ∃ w, JText fl t w ∧ R v w
  | .none, _, _, h, _, _ => by rw [dump] at h; cases h; exact ⟨_, JText.null, hR.none⟩
  | .bool true, _, _, h, _, _ => by rw [dump] at h; cases h; exact ⟨_, JText.true, hR.bool _⟩
  | .bool false, _, _, h, _, _ => by rw [dump] at h; cases h; exact ⟨_, JText.false, hR.bool _⟩
  | .int n, _, _, h, _, _ => by rw [dump] at h; cases h; exact ⟨_, intStr_text fl n, hR.int _⟩
  | .flt x, _, _, h, _, hf => by rw [dump] at h; cases h; exact ⟨_, floatText_text fl x hf, hR.flt _⟩
  | .str s, _, _, h, _, _ => by rw [dump] at h; cases h; exact ⟨_, JText.str (quoted_ok s), hR.str _⟩
  | .list xs, level, t, h, hw, hf => by
    rw [dump] at h
    obtain ⟨ts, h1, h2⟩ := (bind_ok_iff _ _ _).1 h
    cases h2
    obtain ⟨ps, rfl, hp, hR2⟩ := dumpL_text hR xs _ _ h1 hw hf
    exact ⟨_, bracket_list fl st level ps hp, hR.list _ _ hR2⟩
  | .dict kvs, level, t, h, hw, hf => by
    rw [dump] at h
    obtain ⟨ts, h1, h2⟩ := (bind_ok_iff _ _ _).1 h
    obtain ⟨qs, h3, h4⟩ := (bind_ok_iff _ _ _).1 h2
    cases h4
    rw [DeepWF] at hw
    obtain ⟨ps, rfl, hp, hR2⟩ := dumpD_text hR kvs _ _ h1 hw.2 hf
    obtain ⟨rfl, hk⟩ := order_mems st ps qs h3
    refine ⟨_, ?_, hR.dict kvs ps hw.1 hR2 hk⟩
    have := bracket_dict fl st level (orderMems st ps) (fun q hq => hp q ((orderMems_perm st ps).mem_iff.1 hq))
    simpa [List.map_map, Function.comp_def] using this
theorem dumpL_text {fl : Str → Str} {st : Style} {R : Val → Val → Prop} (hR : Closed st R) : ∀ (xs : List Val) (level : Nat) (ts : List Str),
    dumpL st level xs = .ok ts → DeepWFL xs → FloatsOkL fl xs →
    ∃ ps : List (Str × Val), ts = ps.map Prod.fst ∧ (∀ q ∈ ps, JText fl q.1 q.2) ∧ All2 R xs (ps.map Prod.snd)
  | [], _, _, h, _, _ => by rw [dumpL] at h; cases h; exact ⟨[], rfl, fun _ h => (by cases h), All2.nil⟩
  | x :: xs, level, ts, h, hw, hf => by
    rw [dumpL] at h
    obtain ⟨t, h1, h2⟩ := (bind_ok_iff _ _ _).1 h
    obtain ⟨ts', h3, h4⟩ := (bind_ok_iff _ _ _).1 h2
    cases h4
    obtain ⟨w, hj, hr⟩ := dump_text hR x _ _ h1 hw.1 hf.1
    obtain ⟨ps, rfl, hp, hR2⟩ := dumpL_text hR xs _ _ h3 hw.2 hf.2
    refine ⟨(t, w) :: ps, rfl, ?_, All2.cons hr hR2⟩
    intro q hq
    rcases List.mem_cons.1 hq with rfl | hq
    · exact hj
    · exact hp q hq
theorem dumpD_text {fl : Str → Str} {st : Style} {R : Val → Val → Prop} (hR : Closed st R) : ∀ (kvs : List (Key × Val)) (level : Nat)
    (ts : List (Key × Str)), dumpD st level kvs = .ok ts → DeepWFD kvs → FloatsOkD fl kvs →
    ∃ ps : List Mem, ts = ps.map (fun q => (q.key, q.text)) ∧ (∀ q ∈ ps, JText fl q.text q.val) ∧
      All2 (fun kv p => p.key = kv.1 ∧ R kv.2 p.val) kvs ps
  | [], _, _, h, _, _ => by rw [dumpD] at h; cases h; exact ⟨[], rfl, fun _ h => (by cases h), All2.nil⟩
  | (k, x) :: xs, level, ts, h, hw, hf => by
    rw [dumpD] at h
    obtain ⟨t, h1, h2⟩ := (bind_ok_iff _ _ _).1 h
    obtain ⟨ts', h3, h4⟩ := (bind_ok_iff _ _ _).1 h2
    cases h4
    obtain ⟨w, hj, hr⟩ := dump_text hR x _ _ h1 hw.1 hf.1
    obtain ⟨ps, rfl, hp, hR2⟩ := dumpD_text hR xs _ _ h3 hw.2 hf.2
    refine ⟨⟨k, t, w⟩ :: ps, rfl, ?_, All2.cons ⟨rfl, hr⟩ hR2⟩
    intro q hq
    rcases List.mem_cons.1 hq with rfl | hq
    · exact hj
    · exact hp q hq
end

/-! ## What is read -/

theorem ofMembers_nodup (ms : List (Str × Val)) (h : (ms.map Prod.fst).Nodup) : ofMembers ms = ms.map (fun m => (Key.s m.1, m.2)) := by
  have key : ∀ (ms : List (Str × Val)) (d : Dict Key Val), (ms.map Prod.fst).Nodup → (∀ m ∈ ms, Key.s m.1 ∉ Dict.keys d) →
      ms.foldl (fun d m => Dict.set d (.s m.1) m.2) d = d ++ ms.map (fun m => (Key.s m.1, m.2)) := by
    intro ms
    induction ms with
    | nil => intro d _ _; simp
    | cons m ms ih =>
      intro d hn hd
      rw [List.map_cons, List.nodup_cons] at hn
      rw [List.foldl_cons, Dict.set_of_not_mem _ _ _ (hd m (by simp)), ih _ hn.2]
      · simp
      · intro m' hm'
        simp only [Dict.keys, List.map_append, List.map_cons, List.map_nil, List.mem_append, List.mem_singleton, not_or]
        refine ⟨hd m' (by simp [hm']), ?_⟩
        intro e
        exact hn.1 (List.mem_map.2 ⟨m', hm', Key.s.inj e⟩)
  exact (key ms [] h (by simp [Dict.keys])).trans (List.nil_append _)

theorem intStr_inj {a b : Int} (h : intStr a = intStr b) : a = b := by
  have key : ∀ n c, c ∈ natStr n → c ≠ '-' := by
    intro n c hc e; subst e; exact natStr_no n '-' rfl hc
  cases a with
  | ofNat a =>
    cases b with
    | ofNat b =>
      have := congrArg natOfDigits h
      rw [intStr, intStr, natStr_val, natStr_val] at this
      rw [this]
    | negSucc b =>
      rw [intStr, intStr] at h
      exact absurd rfl (key a '-' (by rw [h]; simp))
  | negSucc a =>
    cases b with
    | ofNat b =>
      rw [intStr, intStr] at h
      exact absurd rfl (key b '-' (by rw [← h]; simp))
    | negSucc b =>
      rw [intStr, intStr, List.cons.injEq] at h
      have := congrArg natOfDigits h.2
      rw [natStr_val, natStr_val] at this
      have e : a = b := by omega
      rw [e]

theorem keyText_inj {ks : List Key} (h : OneKindKeys ks) {a b : Key} (ha : a ∈ ks) (hb : b ∈ ks) (e : keyText a = keyText b) : a = b := by
  rcases h with h | h
  · obtain ⟨x, rfl⟩ := h a ha
    obtain ⟨y, rfl⟩ := h b hb
    rw [keyText, keyText] at e; rw [e]
  · obtain ⟨x, rfl⟩ := h a ha
    obtain ⟨y, rfl⟩ := h b hb
    rw [keyText, keyText] at e; rw [intStr_inj e]

theorem keyLe_total (a b : Key) : keyLe a b = true ∨ keyLe b a = true := by
  cases a <;> cases b
  · exact Format.strLe_total _ _
  · exact Or.inr rfl
  · exact Or.inl rfl
  · simp only [keyLe, decide_eq_true_eq]; omega

theorem keyLe_trans (a b c : Key) (h1 : keyLe a b = true) (h2 : keyLe b c = true) : keyLe a c = true := by
  cases a <;> cases b <;> cases c
  · exact Format.strLe_trans _ _ _ h1 h2
  · cases h2
  · cases h1
  · cases h1
  · rfl
  · cases h2
  · rfl
  · simp only [keyLe, decide_eq_true_eq] at *; omega

theorem keyLe_lt {ks : List Key} (h : OneKindKeys ks) {a b : Key} (ha : a ∈ ks) (hb : b ∈ ks) (hn : a ≠ b) (hl : keyLe a b = true) : KeyLt a b := by
  rcases h with h | h
  · obtain ⟨x, rfl⟩ := h a ha
    obtain ⟨y, rfl⟩ := h b hb
    rcases (Format.strLe_iff x y).1 hl with e | e
    · exact absurd (by rw [e]) hn
    · exact e
  · obtain ⟨x, rfl⟩ := h a ha
    obtain ⟨y, rfl⟩ := h b hb
    simp only [keyLe, decide_eq_true_eq] at hl
    have : x ≠ y := fun e => hn (by rw [e])
    show x < y
    omega

theorem all2_keys {R : Val → Val → Prop} {kvs : Dict Key Val} {ps : List Mem} (h : All2 (fun kv p => p.key = kv.1 ∧ R kv.2 p.val) kvs ps) :
    ps.map Mem.key = Dict.keys kvs := by
  induction h with
  | nil => rfl
  | cons h _ ih => rw [List.map_cons, ih, h.1]; rfl

theorem all2_mem {R : Val → Val → Prop} {kvs : Dict Key Val} {ps : List Mem} (h : All2 (fun kv p => p.key = kv.1 ∧ R kv.2 p.val) kvs ps) :
    ∀ p ∈ ps, ∃ x, (p.key, x) ∈ kvs ∧ R x p.val := by
  induction h with
  | nil => intro p hp; cases hp
  | cons h _ ih =>
    intro p hp
    rcases List.mem_cons.1 hp with rfl | hp
    · exact ⟨_, by rw [h.1]; exact List.mem_cons_self, h.2⟩
    · obtain ⟨x, hx, hr⟩ := ih p hp
      exact ⟨x, by simp [hx], hr⟩

theorem get_of_mem {d : Dict Key Val} (hw : Dict.WF d) {k : Key} {x : Val} (h : (k, x) ∈ d) : Dict.get? d k = some x := by
  unfold Dict.WF at hw
  induction d with
  | nil => cases h
  | cons a d ih =>
    obtain ⟨k', y⟩ := a
    rw [Dict.keys, List.map_cons, List.nodup_cons] at hw
    rw [Dict.get?_cons]
    rcases List.mem_cons.1 h with e | h
    · cases e; rw [if_pos rfl]
    · have : k' ≠ k := by
        rintro rfl
        exact hw.1 (List.mem_map.2 ⟨(k', x), h, rfl⟩)
      rw [if_neg this]
      exact ih hw.2 h

theorem mem_of_get {d : Dict Key Val} {k : Key} {x : Val} (h : Dict.get? d k = some x) : (k, x) ∈ d := by
  induction d with
  | nil => cases h
  | cons a d ih =>
    obtain ⟨k', y⟩ := a
    rw [Dict.get?_cons] at h
    split at h
    · rename_i e; cases h; subst e; simp
    · simp [ih h]

theorem jsonName_keyText (k : Key) : jsonName k = keyText k := by cases k <;> rfl

theorem mirrors_closed (st : Style) (hs : st.sort = true) : Closed st Mirrors where
  none := Mirrors.none
  bool := Mirrors.bool
  int := Mirrors.int
  flt := Mirrors.flt
  str := Mirrors.str
  list := by
    intro xs ys h
    have : xs.length = ys.length ∧ ∀ (i : Nat) (x y : Val), xs[i]? = some x → ys[i]? = some y → Mirrors x y := by
      induction h with
      | nil => exact ⟨rfl, fun i x y h => by simp at h⟩
      | cons h _ ih =>
        refine ⟨by simp [ih.1], ?_⟩
        intro i x y hx hy
        cases i with
        | zero => simp at hx hy; subst hx hy; exact h
        | succ i => simp at hx hy; exact ih.2 i x y hx hy
    exact Mirrors.list this.1 this.2
  dict := by
    intro kvs ps hw h2 hk
    have hk := hk hs
    have hkeys := all2_keys h2
    have hperm := orderMems_perm st ps
    have hpk : ((orderMems st ps).map Mem.key).Perm (Dict.keys kvs) := by rw [← hkeys]; exact hperm.map _
    have hnd : ((orderMems st ps).map Mem.key).Nodup := hpk.nodup_iff.2 hw
    have hkind : OneKindKeys ((orderMems st ps).map Mem.key) := by
      unfold OneKindKeys
      simp only [hpk.mem_iff, ← hkeys]
      exact hk
    have hnames : (((orderMems st ps).map (fun q => (keyText q.key, q.val))).map Prod.fst).Nodup := by
      rw [List.map_map]
      have e : (Prod.fst ∘ fun q : Mem => (keyText q.key, q.val)) = keyText ∘ Mem.key := rfl
      rw [e, ← List.map_map]
      unfold List.Nodup
      rw [List.pairwise_map]
      refine List.Pairwise.imp_of_mem ?_ hnd
      intro a b ha hb hab e
      exact hab (keyText_inj hkind ha hb e)
    rw [ofMembers_nodup _ hnames]
    refine Mirrors.dict ((orderMems st ps).map Mem.key) ?_ (fun k => hpk.mem_iff) ?_ ?_
    · have hp : ((orderMems st ps).map Mem.key).Pairwise (fun a b => keyLe a b = true) := by
        rw [List.pairwise_map]
        unfold orderMems
        rw [hs, if_pos rfl]
        exact Format.sorted_pairwise (fun a b : Mem => keyLe a.key b.key) (fun a b => keyLe_total a.key b.key) (fun a b c => keyLe_trans a.key b.key c.key) ps
      refine List.Pairwise.imp_of_mem ?_ (List.Pairwise.and hnd hp)
      intro a b ha hb hab
      exact keyLe_lt hkind ha hb hab.1 hab.2
    · simp only [Dict.keys, List.map_map]
      refine List.map_congr_left (fun q _ => ?_)
      simp [jsonName_keyText]
    · intro k x y hx hy
      have hm := mem_of_get hy
      rw [jsonName_keyText] at hm
      simp only [List.map_map, List.mem_map, Function.comp_apply, Prod.mk.injEq, Key.s.injEq] at hm
      obtain ⟨q, hq, he, rfl⟩ := hm
      have hkm : k ∈ (orderMems st ps).map Mem.key := hpk.mem_iff.2 (List.mem_map.2 ⟨_, Dict.mem_of_get? _ _ _ hx, rfl⟩)
      have hqk : q.key = k := keyText_inj hkind (List.mem_map.2 ⟨q, hq, rfl⟩) hkm he
      obtain ⟨x', hx', hr⟩ := all2_mem h2 q (hperm.mem_iff.1 hq)
      rw [hqk] at hx'
      rw [get_of_mem hw hx'] at hx
      cases hx
      exact hr

theorem same_closed (st : Style) (hs : st.sort = false) : Closed st (fun v w => TextKeys v → w = v) where
  none := fun _ => rfl
  bool := fun _ _ => rfl
  int := fun _ _ => rfl
  flt := fun _ _ => rfl
  str := fun _ _ => rfl
  list := by
    intro xs ys h hk
    rw [TextKeys] at hk
    congr 1
    induction h with
    | nil => rfl
    | cons h _ ih => rw [TextKeysL] at hk; rw [h hk.1, ih hk.2]
  dict := by
    intro kvs ps hw h2 hk0 hk
    clear hk0
    rw [TextKeys] at hk
    have e : ps.map (fun q => (Key.s (keyText q.key), q.val)) = kvs := by
      have hk1 := hk.1
      have hk2 := hk.2
      clear hw hk
      induction h2 with
      | nil => rfl
      | cons h _ ih =>
        rename_i a m b as bs
        rw [TextKeysD.eq_def] at hk2
        simp only at hk2
        rw [List.map_cons, ih (fun k hk => hk1 k (by simp at hk ⊢; exact Or.inr hk)) hk2.2, h.1, h.2 hk2.1]
        obtain ⟨s, hs⟩ := hk1 a.1 (by simp)
        obtain ⟨k, v⟩ := a
        simp only at hs
        subst hs
        rfl
    have hnames : ((ps.map (fun q => (keyText q.key, q.val))).map Prod.fst).Nodup := by
      have h1 : (kvs.map Prod.fst).Nodup := hw
      rw [← e, List.map_map] at h1
      rw [List.map_map]
      unfold List.Nodup at h1 ⊢
      rw [List.pairwise_map] at h1 ⊢
      refine h1.imp ?_
      intro a b hab e
      exact hab (congrArg Key.s e)
    unfold orderMems
    rw [hs]
    simp only [Bool.false_eq_true, if_false]
    rw [ofMembers_nodup _ hnames, List.map_map]
    exact congrArg Val.dict e

/-! ## When there is a text -/

mutual
theorem dump_ok_iff (st : Style) (hs : st.sort = true) : ∀ (v : Val) (level : Nat), (∃ t, dump st level v = .ok t) ↔ OneKind v
  | .none, _ => ⟨fun _ => trivial, fun _ => ⟨_, rfl⟩⟩
  | .bool true, _ => ⟨fun _ => trivial, fun _ => ⟨_, rfl⟩⟩
  | .bool false, _ => ⟨fun _ => trivial, fun _ => ⟨_, rfl⟩⟩
  | .int _, _ => ⟨fun _ => trivial, fun _ => ⟨_, rfl⟩⟩
  | .flt _, _ => ⟨fun _ => trivial, fun _ => ⟨_, rfl⟩⟩
  | .str _, _ => ⟨fun _ => trivial, fun _ => ⟨_, rfl⟩⟩
  | .list xs, level => by
    rw [OneKind, ← dumpL_ok_iff st hs xs (level + 1)]
    constructor
    · rintro ⟨t, h⟩
      rw [dump] at h
      obtain ⟨ts, h1, _⟩ := (bind_ok_iff _ _ _).1 h
      exact ⟨ts, h1⟩
    · rintro ⟨ts, h⟩
      exact ⟨_, by rw [dump, h]; rfl⟩
  | .dict kvs, level => by
    rw [OneKind, ← dumpD_ok_iff st hs kvs (level + 1)]
    constructor
    · rintro ⟨t, h⟩
      rw [dump] at h
      obtain ⟨ts, h1, h2⟩ := (bind_ok_iff _ _ _).1 h
      obtain ⟨qs, h3, _⟩ := (bind_ok_iff _ _ _).1 h2
      have := ((order_ok_iff _ _ _).1 h3).1 hs
      rw [dumpD_keys _ _ _ _ h1] at this
      exact ⟨this, ts, h1⟩
    · rintro ⟨hk, ts, h⟩
      have ho := (order_ok_iff st ts _).2 ⟨fun _ => (by rw [dumpD_keys _ _ _ _ h]; exact hk), rfl⟩
      exact ⟨_, by rw [dump, h, ok_bind, ho]; rfl⟩
theorem dumpL_ok_iff (st : Style) (hs : st.sort = true) : ∀ (xs : List Val) (level : Nat), (∃ ts, dumpL st level xs = .ok ts) ↔ OneKindL xs
  | [], _ => ⟨fun _ => trivial, fun _ => ⟨_, rfl⟩⟩
  | x :: xs, level => by
    rw [OneKindL, ← dumpL_ok_iff st hs xs level, ← dump_ok_iff st hs x level]
    constructor
    · rintro ⟨t, h⟩
      rw [dumpL] at h
      obtain ⟨t, h1, h2⟩ := (bind_ok_iff _ _ _).1 h
      obtain ⟨ts, h3, _⟩ := (bind_ok_iff _ _ _).1 h2
      exact ⟨⟨t, h1⟩, ⟨ts, h3⟩⟩
    · rintro ⟨⟨t, h⟩, ts, h'⟩
      exact ⟨_, by rw [dumpL, h, ok_bind, h']; rfl⟩
theorem dumpD_ok_iff (st : Style) (hs : st.sort = true) : ∀ (kvs : List (Key × Val)) (level : Nat), (∃ ts, dumpD st level kvs = .ok ts) ↔ OneKindD kvs
  | [], _ => ⟨fun _ => trivial, fun _ => ⟨_, rfl⟩⟩
  | (k, x) :: xs, level => by
    rw [OneKindD, ← dumpD_ok_iff st hs xs level, ← dump_ok_iff st hs x level]
    constructor
    · rintro ⟨t, h⟩
      rw [dumpD] at h
      obtain ⟨t, h1, h2⟩ := (bind_ok_iff _ _ _).1 h
      obtain ⟨ts, h3, _⟩ := (bind_ok_iff _ _ _).1 h2
      exact ⟨⟨t, h1⟩, ⟨ts, h3⟩⟩
    · rintro ⟨⟨t, h⟩, ts, h'⟩
      exact ⟨_, by rw [dumpD, h, ok_bind, h']; rfl⟩
theorem dumpD_keys (st : Style) : ∀ (kvs : List (Key × Val)) (level : Nat) (ts : List (Key × Str)), dumpD st level kvs = .ok ts →
    ts.map Prod.fst = kvs.map Prod.fst
  | [], _, _, h => by rw [dumpD] at h; cases h; rfl
  | (k, x) :: xs, level, ts, h => by
    rw [dumpD] at h
    obtain ⟨t, h1, h2⟩ := (bind_ok_iff _ _ _).1 h
    obtain ⟨ts', h3, h4⟩ := (bind_ok_iff _ _ _).1 h2
    cases h4
    rw [List.map_cons, List.map_cons, dumpD_keys st xs _ _ h3]
end

end TTP.Json

namespace TTP.Json
open Py Spec

/-! ## Errors, characters, equality -/

mutual
theorem dump_error (st : Style) : ∀ (v : Val) (level : Nat) (e : Err), dump st level v = .error e → e = .typeError
  | .none, _, _, h => by rw [dump] at h; cases h
  | .bool true, _, _, h => by rw [dump] at h; cases h
  | .bool false, _, _, h => by rw [dump] at h; cases h
  | .int _, _, _, h => by rw [dump] at h; cases h
  | .flt _, _, _, h => by rw [dump] at h; cases h
  | .str _, _, _, h => by rw [dump] at h; cases h
  | .list xs, level, e, h => by
    rw [dump] at h
    cases h1 : dumpL st (level + 1) xs with
    | error e' => rw [h1] at h; cases h; exact dumpL_error st xs _ _ h1
    | ok ts => rw [h1] at h; cases h
  | .dict kvs, level, e, h => by
    rw [dump] at h
    cases h1 : dumpD st (level + 1) kvs with
    | error e' => rw [h1] at h; cases h; exact dumpD_error st kvs _ _ h1
    | ok ts =>
      rw [h1, ok_bind] at h
      cases h2 : order st ts with
      | ok qs => rw [h2] at h; cases h
      | error e' =>
        rw [h2] at h; cases h
        unfold order sortItems at h2
        split at h2
        · split at h2
          · cases h2
          · cases h2; rfl
        · cases h2
theorem dumpL_error (st : Style) : ∀ (xs : List Val) (level : Nat) (e : Err), dumpL st level xs = .error e → e = .typeError
  | [], _, _, h => by rw [dumpL] at h; cases h
  | x :: xs, level, e, h => by
    rw [dumpL] at h
    cases h1 : dump st level x with
    | error e' => rw [h1] at h; cases h; exact dump_error st x _ _ h1
    | ok t =>
      rw [h1, ok_bind] at h
      cases h2 : dumpL st level xs with
      | error e' => rw [h2] at h; cases h; exact dumpL_error st xs _ _ h2
      | ok ts => rw [h2] at h; cases h
theorem dumpD_error (st : Style) : ∀ (kvs : List (Key × Val)) (level : Nat) (e : Err), dumpD st level kvs = .error e → e = .typeError
  | [], _, _, h => by rw [dumpD] at h; cases h
  | (k, x) :: xs, level, e, h => by
    rw [dumpD] at h
    cases h1 : dump st level x with
    | error e' => rw [h1] at h; cases h; exact dump_error st x _ _ h1
    | ok t =>
      rw [h1, ok_bind] at h
      cases h2 : dumpD st level xs with
      | error e' => rw [h2] at h; cases h; exact dumpD_error st xs _ _ h2
      | ok ts => rw [h2] at h; cases h
end

/-- printable characters of ASCII and line ends -/
def Plain (s : Str) : Prop := ∀ c ∈ s, c = '\n' ∨ (32 ≤ c.toNat ∧ c.toNat ≤ 126)

theorem plain_append {a b : Str} : Plain (a ++ b) ↔ Plain a ∧ Plain b := by
  unfold Plain
  simp only [List.mem_append]
  exact ⟨fun h => ⟨fun c hc => h c (Or.inl hc), fun c hc => h c (Or.inr hc)⟩, fun h c hc => hc.elim (h.1 c) (h.2 c)⟩

theorem plain_cons {c : Char} {b : Str} : Plain (c :: b) ↔ (c = '\n' ∨ (32 ≤ c.toNat ∧ c.toNat ≤ 126)) ∧ Plain b := by
  unfold Plain
  simp only [List.mem_cons]
  exact ⟨fun h => ⟨h c (Or.inl rfl), fun d hd => h d (Or.inr hd)⟩, fun h d hd => hd.elim (fun e => e ▸ h.1) (h.2 d)⟩

theorem plain_nil : Plain [] := fun _ h => by cases h

theorem plain_hex (d : Nat) (h : d < 16) : 32 ≤ (hexChar d).toNat ∧ (hexChar d).toNat ≤ 126 := by
  revert d; decide

theorem plain_unit (n : Nat) : Plain (codeUnit n) := by
  unfold codeUnit
  simp only [plain_cons]
  exact ⟨by decide, by decide, Or.inr (plain_hex _ (by omega)), Or.inr (plain_hex _ (by omega)), Or.inr (plain_hex _ (by omega)),
    Or.inr (plain_hex _ (by omega)), plain_nil⟩

theorem plain_escaped (c : Char) : Plain (escaped c) := by
  have two : ∀ a b : Char, (32 ≤ a.toNat ∧ a.toNat ≤ 126) → (32 ≤ b.toNat ∧ b.toNat ≤ 126) → Plain [a, b] := by
    intro a b ha hb; simp only [plain_cons]; exact ⟨Or.inr ha, Or.inr hb, plain_nil⟩
  unfold escaped
  split
  · exact two _ _ (by decide) (by decide)
  split
  · exact two _ _ (by decide) (by decide)
  split
  · exact two _ _ (by decide) (by decide)
  split
  · exact two _ _ (by decide) (by decide)
  split
  · exact two _ _ (by decide) (by decide)
  split
  · exact two _ _ (by decide) (by decide)
  split
  · exact two _ _ (by decide) (by decide)
  split
  · rename_i h; exact plain_cons.2 ⟨Or.inr h, plain_nil⟩
  split
  · exact plain_unit _
  · exact plain_append.2 ⟨plain_unit _, plain_unit _⟩

theorem plain_quoted (s : Str) : Plain (quoted s) := by
  unfold quoted
  refine plain_cons.2 ⟨by decide, plain_append.2 ⟨?_, plain_cons.2 ⟨by decide, plain_nil⟩⟩⟩
  intro c hc
  obtain ⟨d, _, hd⟩ := List.mem_flatMap.1 hc
  exact plain_escaped d c hd

theorem plain_digit {c : Char} (h : JDigit c) : c = '\n' ∨ (32 ≤ c.toNat ∧ c.toNat ≤ 126) := by
  have h1 : 48 ≤ c.toNat := h.1
  have h2 : c.toNat ≤ 57 := h.2
  exact Or.inr ⟨by omega, by omega⟩

theorem plain_intDigits {ds : Str} (h : IntDigits ds) : Plain ds := by
  rcases h with rfl | ⟨c, cs, rfl, _, hc, hcs⟩
  · exact plain_cons.2 ⟨by decide, plain_nil⟩
  · exact plain_cons.2 ⟨plain_digit hc, fun d hd => plain_digit (hcs d hd)⟩

theorem plain_intStr (n : Int) : Plain (intStr n) := by
  cases n with
  | ofNat n => exact plain_intDigits (natStr_intDigits n)
  | negSucc n => exact plain_cons.2 ⟨by decide, plain_intDigits (natStr_intDigits _)⟩

theorem plain_float {fl : Str → Str} {t : Str} (h : FloatRepr fl t) : Plain (floatText t) := by
  rcases h with rfl | rfl | rfl | ⟨_, sg, ds, f, e, rfl, hs, hd, hf, he, _⟩
  · exact fun c hc => by revert c; decide
  · exact fun c hc => by revert c; decide
  · exact fun c hc => by revert c; decide
  · have hp : Plain (sg ++ (ds ++ (f ++ e))) := by
      refine plain_append.2 ⟨?_, plain_append.2 ⟨plain_intDigits hd, plain_append.2 ⟨?_, ?_⟩⟩⟩
      · rcases hs with rfl | rfl
        · exact plain_nil
        · exact plain_cons.2 ⟨by decide, plain_nil⟩
      · rcases hf with rfl | ⟨dd, rfl, _, hdd⟩
        · exact plain_nil
        · exact plain_cons.2 ⟨by decide, fun d hd => plain_digit (hdd d hd)⟩
      · rcases he with rfl | ⟨x, sg, dd, rfl, hx, hsg, _, hdd⟩
        · exact plain_nil
        · refine plain_cons.2 ⟨?_, plain_append.2 ⟨?_, fun d hd => plain_digit (hdd d hd)⟩⟩
          · rcases hx with rfl | rfl <;> decide
          · rcases hsg with rfl | rfl | rfl
            · exact plain_nil
            · exact plain_cons.2 ⟨by decide, plain_nil⟩
            · exact plain_cons.2 ⟨by decide, plain_nil⟩
    unfold floatText
    split
    · exact fun c hc => by revert c; decide
    split
    · exact fun c hc => by revert c; decide
    split
    · exact fun c hc => by revert c; decide
    · exact hp

theorem plain_newline (st : Style) (n : Nat) : Plain (newline st n) ∧ Plain (afterComma st n) := by
  have rep : ∀ k, Plain ('\n' :: List.replicate k ' ') := by
    intro k
    refine plain_cons.2 ⟨Or.inl rfl, ?_⟩
    intro c hc
    rw [List.eq_of_mem_replicate hc]
    decide
  unfold newline afterComma
  constructor
  · split
    · exact plain_nil
    · exact rep _
  · split
    · exact plain_cons.2 ⟨by decide, plain_nil⟩
    · exact rep _

theorem plain_join {sep : Str} (hs : Plain sep) : ∀ ts : List Str, (∀ t ∈ ts, Plain t) → Plain (join sep ts)
  | [], _ => plain_nil
  | [t], h => h t (by simp)
  | t :: u :: ts, h => by
    rw [join]
    refine plain_append.2 ⟨plain_append.2 ⟨h t (by simp), hs⟩, plain_join hs (u :: ts) (fun x hx => h x ?_)⟩
    exact List.mem_cons_of_mem _ hx

theorem plain_bracket (st : Style) (level : Nat) {l r : Char} (hl : 32 ≤ l.toNat ∧ l.toNat ≤ 126) (hr : 32 ≤ r.toNat ∧ r.toNat ≤ 126) (ts : List Str)
    (h : ∀ t ∈ ts, Plain t) : Plain (bracket st level l r ts) := by
  cases ts with
  | nil => exact plain_cons.2 ⟨Or.inr hl, plain_cons.2 ⟨Or.inr hr, plain_nil⟩⟩
  | cons t ts =>
    rw [bracket]
    refine plain_cons.2 ⟨Or.inr hl, plain_append.2 ⟨(plain_newline _ _).1, plain_append.2 ⟨plain_join ?_ _ h, plain_append.2 ⟨(plain_newline _ _).1, ?_⟩⟩⟩⟩
    · exact plain_cons.2 ⟨by decide, (plain_newline _ _).2⟩
    · exact plain_cons.2 ⟨Or.inr hr, plain_nil⟩

mutual
theorem dump_plain {fl : Str → Str} (st : Style) : ∀ (v : Val) (level : Nat) (t : Str), dump st level v = .ok t → FloatsOk fl v → Plain t
  | .none, _, _, h, _ => by rw [dump] at h; cases h; exact fun c hc => by revert c; decide
  | .bool true, _, _, h, _ => by rw [dump] at h; cases h; exact fun c hc => by revert c; decide
  | .bool false, _, _, h, _ => by rw [dump] at h; cases h; exact fun c hc => by revert c; decide
  | .int n, _, _, h, _ => by rw [dump] at h; cases h; exact plain_intStr n
  | .flt x, _, _, h, hf => by rw [dump] at h; cases h; exact plain_float hf
  | .str s, _, _, h, _ => by rw [dump] at h; cases h; exact plain_quoted s
  | .list xs, level, t, h, hf => by
    rw [dump] at h
    obtain ⟨ts, h1, h2⟩ := (bind_ok_iff _ _ _).1 h
    cases h2
    exact plain_bracket st level (by decide) (by decide) ts (dumpL_plain st xs _ _ h1 hf)
  | .dict kvs, level, t, h, hf => by
    rw [dump] at h
    obtain ⟨ts, h1, h2⟩ := (bind_ok_iff _ _ _).1 h
    obtain ⟨qs, h3, h4⟩ := (bind_ok_iff _ _ _).1 h2
    cases h4
    refine plain_bracket st level (by decide) (by decide) _ ?_
    intro t ht
    obtain ⟨p, hp, rfl⟩ := List.mem_map.1 ht
    have hm : p ∈ ts := by
      obtain ⟨_, rfl⟩ := (order_ok_iff _ _ _).1 h3
      split at hp
      · exact (Format.sorted_perm _ _).mem_iff.1 hp
      · exact hp
    unfold member
    refine plain_append.2 ⟨plain_quoted _, plain_cons.2 ⟨by decide, plain_cons.2 ⟨by decide, dumpD_plain st kvs _ _ h1 hf p hm⟩⟩⟩
theorem dumpL_plain {fl : Str → Str} (st : Style) : ∀ (xs : List Val) (level : Nat) (ts : List Str), dumpL st level xs = .ok ts → FloatsOkL fl xs →
    ∀ t ∈ ts, Plain t
  | [], _, _, h, _ => by rw [dumpL] at h; cases h; intro t ht; cases ht
  | x :: xs, level, ts, h, hf => by
    rw [dumpL] at h
    obtain ⟨t, h1, h2⟩ := (bind_ok_iff _ _ _).1 h
    obtain ⟨ts', h3, h4⟩ := (bind_ok_iff _ _ _).1 h2
    cases h4
    intro u hu
    rcases List.mem_cons.1 hu with rfl | hu
    · exact dump_plain st x _ _ h1 hf.1
    · exact dumpL_plain st xs _ _ h3 hf.2 u hu
theorem dumpD_plain {fl : Str → Str} (st : Style) : ∀ (kvs : List (Key × Val)) (level : Nat) (ts : List (Key × Str)), dumpD st level kvs = .ok ts →
    FloatsOkD fl kvs → ∀ t ∈ ts, Plain t.2
  | [], _, _, h, _ => by rw [dumpD] at h; cases h; intro t ht; cases ht
  | (k, x) :: xs, level, ts, h, hf => by
    rw [dumpD] at h
    obtain ⟨t, h1, h2⟩ := (bind_ok_iff _ _ _).1 h
    obtain ⟨ts', h3, h4⟩ := (bind_ok_iff _ _ _).1 h2
    cases h4
    intro u hu
    rcases List.mem_cons.1 hu with rfl | hu
    · exact dump_plain st x _ _ h1 hf.1
    · exact dumpD_plain st xs _ _ h3 hf.2 u hu
end

/-! With texts as keys the data are equal -/

theorem textKeysL_mem : ∀ (xs : List Val), TextKeysL xs → ∀ x ∈ xs, TextKeys x
  | [], _, _, h => by cases h
  | y :: ys, h, x, hx => by
    rcases List.mem_cons.1 hx with rfl | hx
    · exact h.1
    · exact textKeysL_mem ys h.2 x hx

theorem textKeysD_mem : ∀ (kvs : List (Key × Val)), TextKeysD kvs → ∀ k x, (k, x) ∈ kvs → TextKeys x
  | [], _, _, _, h => by cases h
  | (k', y) :: ys, h, k, x, hx => by
    rcases List.mem_cons.1 hx with e | hx
    · cases e; exact h.1
    · exact textKeysD_mem ys h.2 k x hx

theorem keys_get {d : Dict Key Val} {k : Key} : k ∈ Dict.keys d ↔ ∃ x, Dict.get? d k = some x := by
  cases h : Dict.get? d k with
  | none => exact ⟨fun hm => absurd hm ((Dict.get?_eq_none_iff d k).1 h), fun ⟨x, e⟩ => by cases e⟩
  | some x => exact ⟨fun _ => ⟨x, rfl⟩, fun _ => List.mem_map.2 ⟨_, Dict.mem_of_get? _ _ _ h, rfl⟩⟩

theorem mirrors_same {v w : Val} (h : Mirrors v w) : TextKeys v → SameVal v w := by
  induction h with
  | none => exact fun _ => SameVal.none
  | bool b => exact fun _ => SameVal.bool b
  | int n => exact fun _ => SameVal.int n
  | flt t => exact fun _ => SameVal.flt t
  | str s => exact fun _ => SameVal.str s
  | list hl _ ih =>
    intro hk
    exact SameVal.list hl (fun i x y hx hy => ih i x y hx hy (textKeysL_mem _ hk x (List.mem_of_getElem? hx)))
  | dict ks _ hmem hb _ ih =>
    rename_i a b hp _
    intro hk
    rw [TextKeys] at hk
    have hkb : ∀ k, k ∈ Dict.keys b ↔ k ∈ Dict.keys a := by
      intro k
      rw [hb, ← hmem, List.mem_map]
      constructor
      · rintro ⟨q, hq, rfl⟩
        obtain ⟨s, rfl⟩ := hk.1 q ((hmem q).1 hq)
        exact hq
      · intro hq
        obtain ⟨s, rfl⟩ := hk.1 k ((hmem k).1 hq)
        exact ⟨_, hq, rfl⟩
    refine SameVal.dict (fun k => ?_) ?_
    · rw [← keys_get, ← keys_get, hkb]
    · intro k x y hx hy
      obtain ⟨s, rfl⟩ := hk.1 k (keys_get.2 ⟨x, hx⟩)
      exact ih _ x y hx hy (textKeysD_mem _ hk.2 _ _ (mem_of_get hx))

end TTP.Json
