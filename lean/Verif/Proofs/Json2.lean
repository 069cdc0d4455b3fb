import Verif.Proofs.Json
/-!
# JSON texts: numbers, lists, dictionaries, documents
-/

namespace TTP.Json
open Py Spec

theorem digit_iff (c : Char) : isDigit c = true ↔ JDigit c := by
  unfold isDigit JDigit
  rw [Bool.and_eq_true, decide_eq_true_iff, decide_eq_true_iff]
  exact Iff.rfl

/-- no digit at the beginning -/
def NoDigit (s : Str) : Prop := ∀ c r, s = c :: r → isDigit c = false

theorem digitRun_append {ds r : Str} (h : ∀ d ∈ ds, JDigit d) (hr : NoDigit r) : ReText.digitRun (ds ++ r) = (ds, r) := by
  induction ds with
  | nil =>
    cases r with
    | nil => rfl
    | cons c r => rw [List.nil_append, ReText.digitRun, if_neg (by rw [hr c r rfl]; decide)]
  | cons d ds ih =>
    rw [List.cons_append, ReText.digitRun, if_pos ((digit_iff d).2 (h d (by simp))), ih (fun x hx => h x (by simp [hx]))]

theorem digitRun_split : ∀ s : Str, s = (ReText.digitRun s).1 ++ (ReText.digitRun s).2 ∧ ∀ d ∈ (ReText.digitRun s).1, JDigit d
  | [] => ⟨rfl, fun _ h => by cases h⟩
  | c :: s => by
    rw [ReText.digitRun]
    split
    · rename_i hc
      refine ⟨by rw [List.cons_append, ← (digitRun_split s).1], ?_⟩
      intro d hd
      rcases List.mem_cons.1 hd with rfl | hd
      · exact (digit_iff _).1 hc
      · exact (digitRun_split s).2 d hd
    · exact ⟨rfl, fun _ h => by cases h⟩

theorem natOfDigits_decimal (ds : Str) : natOfDigits ds = decimal ds := by
  have key : ∀ (ds : Str) (a : Nat), ds.foldl (fun n c => 10 * n + digitVal c) a = a * 10 ^ ds.length + decimal ds := by
    intro ds
    induction ds with
    | nil => intro a; simp [decimal]
    | cons c cs ih =>
      intro a
      rw [List.foldl_cons, ih, decimal, List.length_cons, Nat.pow_succ, digitVal, Nat.add_mul]
      have e : 10 * a * 10 ^ cs.length = a * (10 ^ cs.length * 10) := by
        rw [Nat.mul_comm 10 a, Nat.mul_assoc, Nat.mul_comm 10]
      omega
  have := key ds 0
  simpa [natOfDigits] using this

theorem intPart_sound {s ds r : Str} (h : intPart s = some (ds, r)) : s = ds ++ r ∧ IntDigits ds := by
  unfold intPart at h
  split at h
  · cases h; exact ⟨rfl, Or.inl rfl⟩
  · rename_i c r' hc
    split at h
    · rename_i hd
      cases h
      refine ⟨by rw [List.cons_append, ← (digitRun_split r').1], Or.inr ⟨c, _, rfl, fun e => hc e, (digit_iff c).1 hd, (digitRun_split r').2⟩⟩
    · cases h
  · cases h

theorem intPart_complete {ds r : Str} (h : IntDigits ds) (hr : NoDigit r) : intPart (ds ++ r) = some (ds, r) := by
  rcases h with rfl | ⟨c, cs, rfl, hc, h1, h2⟩
  · rfl
  · rw [List.cons_append]
    unfold intPart
    split
    · rename_i e; cases e; exact absurd rfl hc
    · rename_i e; cases e
      rw [if_pos ((digit_iff _).2 h1), digitRun_append h2 hr]
    · rename_i e; cases e

theorem fracPart_sound (s : Str) : s = (fracPart s).1 ++ (fracPart s).2 ∧ Fraction (fracPart s).1 := by
  unfold fracPart
  split
  · rename_i r
    split
    · exact ⟨rfl, Or.inl rfl⟩
    · rename_i hd
      exact ⟨by rw [List.cons_append, ← (digitRun_split r).1], Or.inr ⟨_, rfl, hd, (digitRun_split r).2⟩⟩
  · exact ⟨rfl, Or.inl rfl⟩

theorem fracPart_complete {f r : Str} (h : Fraction f) (hr : NoDigit r) (hp : f = [] → ∀ q, r ≠ '.' :: q) : fracPart (f ++ r) = (f, r) := by
  rcases h with rfl | ⟨ds, rfl, hn, hd⟩
  · rw [List.nil_append]
    unfold fracPart
    split
    · rename_i q; exact absurd rfl (hp rfl q)
    · rfl
  · show (if (ReText.digitRun (ds ++ r)).1 = [] then _ else _) = _
    rw [digitRun_append hd hr, if_neg hn]
    show ('.' :: (ReText.digitRun (ds ++ r)).1, (ReText.digitRun (ds ++ r)).2) = _
    rw [digitRun_append hd hr]

theorem sign_split (s : Str) : s = (sign s).1 ++ (sign s).2 ∧ ((sign s).1 = [] ∨ (sign s).1 = ['-'] ∨ (sign s).1 = ['+']) := by
  unfold sign
  split
  · exact ⟨rfl, Or.inr (Or.inl rfl)⟩
  · exact ⟨rfl, Or.inr (Or.inr rfl)⟩
  · exact ⟨rfl, Or.inl rfl⟩

theorem expPart_sound (s : Str) : s = (expPart s).1 ++ (expPart s).2 ∧ Exponent (expPart s).1 := by
  cases s with
  | nil => exact ⟨rfl, Or.inl rfl⟩
  | cons c r =>
    rw [expPart]
    split
    · rename_i hc
      split
      · exact ⟨rfl, Or.inl rfl⟩
      · rename_i hd
        refine ⟨?_, Or.inr ⟨c, _, _, rfl, hc, (sign_split r).2, hd, (digitRun_split _).2⟩⟩
        rw [List.cons_append, List.append_assoc, ← (digitRun_split _).1, ← (sign_split r).1]
    · exact ⟨rfl, Or.inl rfl⟩

theorem sign_complete {sg q : Str} (h : sg = [] ∨ sg = ['-'] ∨ sg = ['+']) (hq : ∀ c r, q = c :: r → c ≠ '-' ∧ c ≠ '+') : sign (sg ++ q) = (sg, q) := by
  rcases h with rfl | rfl | rfl
  · rw [List.nil_append]
    unfold sign
    split
    · exact absurd rfl (hq _ _ rfl).1
    · exact absurd rfl (hq _ _ rfl).2
    · rfl
  · rfl
  · rfl

theorem digit_noSign {c : Char} (h : JDigit c) : c ≠ '-' ∧ c ≠ '+' := by
  constructor <;> (rintro rfl; exact absurd ((digit_iff _).2 h) (by decide))

theorem expPart_complete {e r : Str} (h : Exponent e) (hr : NoDigit r) (hp : e = [] → ∀ c q, r = c :: q → c ≠ 'e' ∧ c ≠ 'E') :
    expPart (e ++ r) = (e, r) := by
  rcases h with rfl | ⟨c, sg, ds, rfl, hc, hs, hn, hd⟩
  · rw [List.nil_append]
    cases r with
    | nil => rfl
    | cons c q =>
      have := hp rfl c q rfl
      rw [expPart, if_neg (fun h => h.elim this.1 this.2)]
  · rw [List.cons_append, List.append_assoc, expPart, if_pos hc]
    have : sign (sg ++ (ds ++ r)) = (sg, ds ++ r) := by
      apply sign_complete hs
      intro a b e
      cases ds with
      | nil => exact absurd rfl hn
      | cons d ds => cases e; exact digit_noSign (hd _ (by simp))
    rw [this]
    simp only
    rw [digitRun_append hd hr, if_neg hn]

/-- what may follow a value: white space, a comma, a closing bracket or nothing -/
def Stop (r : Str) : Prop := ∀ c q, r = c :: q → isWs c = true ∨ c = ',' ∨ c = ']' ∨ c = '}'

theorem stop_nil : Stop [] := fun _ _ e => by cases e

theorem stop_cons {c : Char} {r : Str} (h : isWs c = true ∨ c = ',' ∨ c = ']' ∨ c = '}') : Stop (c :: r) := by
  intro a b e; cases e; exact h

theorem stop_blank {w r : Str} (hw : JBlank w) (h : Stop r) : Stop (w ++ r) := by
  cases w with
  | nil => exact h
  | cons c w => exact stop_cons (Or.inl ((blank_iff _).1 hw c (by simp)))

theorem stop_chars {r : Str} (h : Stop r) : NoDigit r ∧ (∀ q, r ≠ '.' :: q) ∧ ∀ c q, r = c :: q → c ≠ 'e' ∧ c ≠ 'E' := by
  have key : ∀ c, (isWs c = true ∨ c = ',' ∨ c = ']' ∨ c = '}') → isDigit c = false ∧ c ≠ '.' ∧ c ≠ 'e' ∧ c ≠ 'E' := by
    intro c hc
    rw [isWs_iff] at hc
    rcases hc with (rfl | rfl | rfl | rfl) | rfl | rfl | rfl <;> decide
  refine ⟨fun c q e => (key c (h c q e)).1, fun q e => (key _ (h _ q e)).2.1 rfl, fun c q e => (key c (h c q e)).2.2⟩

theorem unsigned_sound {fl : Str → Str} {neg : Bool} {s r : Str} {v : Val} (h : unsigned fl neg s = some (v, r)) :
    ∃ t, s = t ++ r ∧ JText fl ((if neg then ['-'] else []) ++ t) v := by
  unfold unsigned at h
  split at h
  · cases h
  · rename_i ds r' hi
    obtain ⟨e1, h1⟩ := intPart_sound hi
    split at h
    · rename_i hz
      simp only [Option.some.injEq, Prod.mk.injEq] at h
      obtain ⟨rfl, rfl⟩ := h
      refine ⟨ds, e1, ?_⟩
      cases neg
      · simp only [Bool.false_eq_true, if_false, intVal, natOfDigits_decimal]; exact JText.int h1
      · simp only [if_true, intVal, natOfDigits_decimal]; exact JText.negInt h1
    · rename_i hz
      simp only [Option.some.injEq, Prod.mk.injEq] at h
      obtain ⟨rfl, rfl⟩ := h
      refine ⟨ds ++ ((fracPart r').1 ++ (expPart (fracPart r').2).1), ?_, ?_⟩
      · rw [e1, List.append_assoc, List.append_assoc, ← (expPart_sound (fracPart r').2).1, ← (fracPart_sound r').1]
      · refine JText.flt ?_ h1 (fracPart_sound r').2 (expPart_sound _).2 ?_
        · cases neg
          · exact Or.inl rfl
          · exact Or.inr rfl
        · by_cases hf : (fracPart r').1 = []
          · exact Or.inr (fun he => hz ⟨hf, he⟩)
          · exact Or.inl hf

theorem unsigned_int (fl : Str → Str) (neg : Bool) {ds r : Str} (h : IntDigits ds) (hr : Stop r) :
    unsigned fl neg (ds ++ r) = some (.int (intVal neg ds), r) := by
  obtain ⟨h1, h2, h3⟩ := stop_chars hr
  unfold unsigned
  rw [intPart_complete h h1]
  simp only
  have e1 : fracPart r = ([], r) := by simpa using fracPart_complete (f := []) (r := r) (Or.inl rfl) h1 (fun _ => h2)
  have e2 : expPart r = ([], r) := by simpa using expPart_complete (e := []) (r := r) (Or.inl rfl) h1 (fun _ => h3)
  rw [e1]
  simp only
  rw [e2]; simp

theorem unsigned_flt (fl : Str → Str) (neg : Bool) {ds f e r : Str} (h : IntDigits ds) (hf : Fraction f) (he : Exponent e) (hn : f ≠ [] ∨ e ≠ [])
    (hr : Stop r) :
    unsigned fl neg (ds ++ (f ++ (e ++ r))) = some (.flt (fl ((if neg then ['-'] else []) ++ (ds ++ (f ++ e)))), r) := by
  obtain ⟨h1, h2, h3⟩ := stop_chars hr
  have hen : NoDigit (e ++ r) ∧ ∀ q, e ++ r ≠ '.' :: q := by
    rcases he with rfl | ⟨c, sg, dd, rfl, hc, _, _, _⟩
    · exact ⟨h1, h2⟩
    · constructor
      · intro a b eq; cases eq; rcases hc with rfl | rfl <;> rfl
      · intro q eq; cases eq; rcases hc with hc | hc <;> cases hc
  have hfn : NoDigit (f ++ (e ++ r)) := by
    rcases hf with rfl | ⟨dd, rfl, _, _⟩
    · exact hen.1
    · intro a b eq; cases eq; rfl
  unfold unsigned
  rw [intPart_complete h hfn]
  simp only
  rw [fracPart_complete hf hen.1 (fun _ => hen.2)]
  simp only
  rw [expPart_complete he h1 (fun _ => h3)]
  simp only
  rw [if_neg (fun h => hn.elim (fun x => x h.1) (fun x => x h.2))]

theorem word_sound {w s r : Str} {v v' : Val} (h : word w v s = some (v', r)) : v' = v ∧ s = w ++ r := by
  unfold word at h
  split at h
  · rename_i hs
    cases h
    refine ⟨rfl, ?_⟩
    obtain ⟨q, rfl⟩ := List.isPrefixOf_iff_prefix.1 hs
    simp
  · cases h

theorem word_complete (w r : Str) (v : Val) : word w v (w ++ r) = some (v, r) := by
  unfold word
  have : startsWith (w ++ r) w = true := List.isPrefixOf_iff_prefix.2 ⟨r, rfl⟩
  rw [if_pos this]; simp

theorem scalar_sound {fl : Str → Str} {s r : Str} {v : Val} (h : scalar fl s = some (v, r)) : ∃ t, s = t ++ r ∧ JText fl t v := by
  cases s with
  | nil => cases h
  | cons c q =>
    simp only [scalar] at h
    split at h
    · obtain ⟨rfl, e⟩ := word_sound h; exact ⟨_, e, JText.null⟩
    split at h
    · obtain ⟨rfl, e⟩ := word_sound h; exact ⟨_, e, JText.true⟩
    split at h
    · obtain ⟨rfl, e⟩ := word_sound h; exact ⟨_, e, JText.false⟩
    split at h
    · obtain ⟨rfl, e⟩ := word_sound h; exact ⟨_, e, JText.nan⟩
    split at h
    · obtain ⟨rfl, e⟩ := word_sound h; exact ⟨_, e, JText.inf⟩
    split at h
    · rename_i hm
      split at h
      · rename_i hs
        cases h
        obtain ⟨y, hy⟩ := List.isPrefixOf_iff_prefix.1 hs
        refine ⟨c!"-Infinity", ?_, JText.negInf⟩
        rw [← hy]; simp
      · obtain ⟨t, rfl, ht⟩ := unsigned_sound h
        exact ⟨c :: t, rfl, by subst hm; exact ht⟩
    · obtain ⟨t, e, ht⟩ := unsigned_sound h
      exact ⟨t, e, ht⟩

theorem intDigits_head {ds : Str} (h : IntDigits ds) : ∃ c cs, ds = c :: cs ∧ JDigit c := by
  rcases h with rfl | ⟨c, cs, rfl, _, hc, _⟩
  · exact ⟨'0', [], rfl, (digit_iff _).1 (by decide)⟩
  · exact ⟨c, cs, rfl, hc⟩

theorem digit_ne {c d : Char} (h : JDigit c) (hd : isDigit d = false) : c ≠ d := by
  rintro rfl; rw [(digit_iff c).2 h] at hd; cases hd

theorem scalar_unsigned (fl : Str → Str) {c : Char} (q : Str) (h : JDigit c) : scalar fl (c :: q) = unsigned fl false (c :: q) := by
  simp only [scalar]
  rw [if_neg (digit_ne h rfl), if_neg (digit_ne h rfl), if_neg (digit_ne h rfl), if_neg (digit_ne h rfl), if_neg (digit_ne h rfl),
    if_neg (digit_ne h rfl)]

theorem scalar_minus (fl : Str → Str) {c : Char} (q : Str) (h : JDigit c) : scalar fl ('-' :: c :: q) = unsigned fl true (c :: q) := by
  have : startsWith ('-' :: c :: q) c!"-Infinity" = false := by
    have hc : c ≠ 'I' := digit_ne h rfl
    show List.isPrefixOf _ _ = false
    simp [List.isPrefixOf]
    intro e; exact absurd e.symm hc
  simp only [scalar]
  rw [if_neg (by decide), if_neg (by decide), if_neg (by decide), if_neg (by decide), if_neg (by decide), if_pos trivial, this]
  rfl

/-- the other values at the beginning of a text -/
theorem value_scalar (fl : Str → Str) (n : Nat) {c : Char} (q : Str) (h1 : c ≠ '"') (h2 : c ≠ '[') (h3 : c ≠ '{') :
    value fl (n + 1) (c :: q) = scalar fl (c :: q) := by
  rw [value, if_neg h1, if_neg h2, if_neg h3]

/-! ## Soundness -/

theorem ofPairs_members (kvs : List (Str × Val)) : ofPairs kvs = ofMembers kvs := rfl

theorem keyPart_sound {s k q : Str} (h : keyPart s = some (k, q)) :
    ∃ t b c, s = t ++ (b ++ (':' :: (c ++ q))) ∧ JQuoted t k ∧ JBlank b ∧ JBlank c := by
  unfold keyPart at h
  split at h
  · rename_i r
    split at h
    · rename_i k' r' hc
      split at h
      · rename_i q' hw
        cases h
        obtain ⟨b, rfl, hb⟩ := chars_sound _ _ _ _ hc
        obtain ⟨w1, e1, hw1⟩ := skipWs_split r'
        obtain ⟨w2, e2, hw2⟩ := skipWs_split q'
        refine ⟨'"' :: (b ++ ['"']), w1, w2, ?_, ⟨b, rfl, hb⟩, hw1, hw2⟩
        rw [← e2, ← hw, ← e1]; simp
      · cases h
    · cases h
  · cases h

theorem sound (fl : Str → Str) : ∀ n : Nat,
    (∀ s v r, value fl n s = some (v, r) → ∃ t, s = t ++ r ∧ JText fl t v) ∧
    (∀ s vs r, items fl n s = some (vs, r) → ∃ t, s = t ++ ']' :: r ∧ JItems fl t vs) ∧
    (∀ s ms r, members fl n s = some (ms, r) → ∃ t, s = t ++ '}' :: r ∧ JMembers fl t ms) := by
  intro n
  induction n with
  | zero => exact ⟨fun _ _ _ h => by simp [value] at h, fun _ _ _ h => by simp [items] at h, fun _ _ _ h => by simp [members] at h⟩
  | succ n ih =>
    obtain ⟨ih1, ih2, ih3⟩ := ih
    refine ⟨?_, ?_, ?_⟩
    · intro s v r h
      cases s with
      | nil => simp [value] at h
      | cons c s =>
        rw [value] at h
        split at h
        · rename_i hc
          obtain ⟨x, b, rfl, hb, rfl⟩ := textOf_sound h
          subst hc
          exact ⟨'"' :: (b ++ ['"']), by simp, JText.str ⟨b, rfl, hb⟩⟩
        split at h
        · rename_i hc
          subst hc
          obtain ⟨w, ew, hw⟩ := skipWs_split s
          unfold listOf at h
          split at h
          · rename_i q hq
            cases h
            exact ⟨'[' :: (w ++ [']']), by rw [ew, hq]; simp, JText.emptyList hw⟩
          · split at h
            · rename_i vs r' hi
              cases h
              obtain ⟨t, et, ht⟩ := ih2 _ _ _ hi
              refine ⟨'[' :: ((w ++ t) ++ [']']), by rw [ew, et]; simp, ?_⟩
              refine JText.list ?_
              cases ht with
              | one ha hv hb =>
                rw [← List.append_assoc]
                exact JItems.one (fun c hc => (List.mem_append.1 hc).elim (hw c) (ha c)) hv hb
              | cons ha hv hb hq =>
                rw [← List.append_assoc]
                exact JItems.cons (fun c hc => (List.mem_append.1 hc).elim (hw c) (ha c)) hv hb hq
            · cases h
        split at h
        · rename_i hc
          subst hc
          obtain ⟨w, ew, hw⟩ := skipWs_split s
          unfold dictOf at h
          split at h
          · rename_i q hq
            cases h
            exact ⟨'{' :: (w ++ ['}']), by rw [ew, hq]; simp, JText.emptyDict hw⟩
          · split at h
            · rename_i vs r' hi
              cases h
              obtain ⟨t, et, ht⟩ := ih3 _ _ _ hi
              refine ⟨'{' :: ((w ++ t) ++ ['}']), by rw [ew, et]; simp, ?_⟩
              refine JText.dict ?_
              cases ht with
              | one ha hk hb hcc hv hd =>
                rw [← List.append_assoc]
                exact JMembers.one (fun c hc => (List.mem_append.1 hc).elim (hw c) (ha c)) hk hb hcc hv hd
              | cons ha hk hb hcc hv hd hq =>
                rw [← List.append_assoc]
                exact JMembers.cons (fun c hc => (List.mem_append.1 hc).elim (hw c) (ha c)) hk hb hcc hv hd hq
            · cases h
        · exact scalar_sound h
    · intro s vs r h
      rw [items] at h
      split at h
      · rename_i v q hv
        obtain ⟨t, rfl, ht⟩ := ih1 _ _ _ hv
        obtain ⟨w, ew, hw⟩ := skipWs_split q
        unfold nextItem at h
        split at h
        · rename_i q' hq
          cases h
          refine ⟨[] ++ (t ++ w), ?_, JItems.one blank_nil ht hw⟩
          rw [ew, hq]; simp
        · rename_i q' hq
          split at h
          · rename_i vs' r' hm
            cases h
            obtain ⟨t', et', ht'⟩ := ih2 _ _ _ hm
            obtain ⟨w', ew', hw'⟩ := skipWs_split q'
            refine ⟨[] ++ (t ++ (w ++ (',' :: (w' ++ t')))), ?_, JItems.cons blank_nil ht hw ?_⟩
            · rw [ew, hq, ew', et']; simp
            · cases ht' with
              | one ha hv hb =>
                rw [← List.append_assoc]
                exact JItems.one (fun c hc => (List.mem_append.1 hc).elim (hw' c) (ha c)) hv hb
              | cons ha hv hb hq =>
                rw [← List.append_assoc]
                exact JItems.cons (fun c hc => (List.mem_append.1 hc).elim (hw' c) (ha c)) hv hb hq
          · cases h
        · cases h
      · cases h
    · intro s vs r h
      rw [members] at h
      split at h
      · rename_i k q0 hk
        obtain ⟨tk, b, c, rfl, htk, hb, hc⟩ := keyPart_sound hk
        split at h
        · rename_i v q hv
          obtain ⟨t, rfl, ht⟩ := ih1 _ _ _ hv
          obtain ⟨w, ew, hw⟩ := skipWs_split q
          unfold nextMember at h
          split at h
          · rename_i q' hq
            cases h
            refine ⟨[] ++ (tk ++ (b ++ (':' :: (c ++ (t ++ w))))), ?_, JMembers.one blank_nil htk hb hc ht hw⟩
            rw [ew, hq]; simp
          · rename_i q' hq
            split at h
            · rename_i vs' r' hm
              cases h
              obtain ⟨t', et', ht'⟩ := ih3 _ _ _ hm
              obtain ⟨w', ew', hw'⟩ := skipWs_split q'
              refine ⟨[] ++ (tk ++ (b ++ (':' :: (c ++ (t ++ (w ++ (',' :: (w' ++ t')))))))), ?_, JMembers.cons blank_nil htk hb hc ht hw ?_⟩
              · rw [ew, hq, ew', et']; simp
              · cases ht' with
                | one ha hk hb hcc hv hd =>
                  rw [← List.append_assoc]
                  exact JMembers.one (fun c hc => (List.mem_append.1 hc).elim (hw' c) (ha c)) hk hb hcc hv hd
                | cons ha hk hb hcc hv hd hq =>
                  rw [← List.append_assoc]
                  exact JMembers.cons (fun c hc => (List.mem_append.1 hc).elim (hw' c) (ha c)) hk hb hcc hv hd hq
            · cases h
          · cases h
        · cases h
      · cases h

/-! ## Completeness -/

/-- the first character of a value is not white space and no closing bracket -/
def Starts (t : Str) : Prop := ∃ c q, t = c :: q ∧ isWs c = false ∧ c ≠ ']' ∧ c ≠ '}'

theorem digit_starts {c : Char} (h : JDigit c) : isWs c = false ∧ c ≠ ']' ∧ c ≠ '}' := by
  refine ⟨?_, digit_ne h rfl, digit_ne h rfl⟩
  cases hw : isWs c with
  | false => rfl
  | true =>
    rw [isWs_iff] at hw
    rcases hw with hw | hw | hw | hw <;> exact absurd hw (digit_ne h rfl)

theorem text_starts {fl : Str → Str} {t : Str} {v : Val} (h : JText fl t v) : Starts t := by
  cases h with
  | null => exact ⟨_, _, rfl, by decide, by decide, by decide⟩
  | true => exact ⟨_, _, rfl, by decide, by decide, by decide⟩
  | false => exact ⟨_, _, rfl, by decide, by decide, by decide⟩
  | nan => exact ⟨_, _, rfl, by decide, by decide, by decide⟩
  | inf => exact ⟨_, _, rfl, by decide, by decide, by decide⟩
  | negInf => exact ⟨_, _, rfl, by decide, by decide, by decide⟩
  | emptyList _ => exact ⟨_, _, rfl, by decide, by decide, by decide⟩
  | list _ => exact ⟨_, _, rfl, by decide, by decide, by decide⟩
  | emptyDict _ => exact ⟨_, _, rfl, by decide, by decide, by decide⟩
  | dict _ => exact ⟨_, _, rfl, by decide, by decide, by decide⟩
  | negInt _ => exact ⟨_, _, rfl, by decide, by decide, by decide⟩
  | int hd =>
    obtain ⟨c, cs, rfl, hc⟩ := intDigits_head hd
    exact ⟨c, cs, rfl, digit_starts hc⟩
  | str hq =>
    obtain ⟨b, rfl, _⟩ := hq
    exact ⟨_, _, rfl, by decide, by decide, by decide⟩
  | flt hs hd _ _ _ =>
    obtain ⟨c, cs, rfl, hc⟩ := intDigits_head hd
    rcases hs with rfl | rfl
    · exact ⟨c, _, rfl, digit_starts hc⟩
    · exact ⟨'-', _, rfl, by decide, by decide, by decide⟩

theorem keyPart_complete {k n b c q : Str} (hk : JQuoted k n) (hb : JBlank b) (hc : JBlank c) (hq : NoWs q) :
    keyPart (k ++ (b ++ (':' :: (c ++ q)))) = some (n, q) := by
  obtain ⟨t, rfl, ht⟩ := hk
  rw [List.cons_append, List.append_assoc]
  unfold keyPart
  simp only [List.cons_append, List.nil_append]
  rw [chars_complete ht _ _ (by simp; omega)]
  simp only
  rw [skipWs_blank_cons hb (by decide)]
  simp only
  rw [skipWs_append hc, skipWs_noWs hq]

theorem starts_noWs {t r : Str} (h : Starts t) : NoWs (t ++ r) := by
  obtain ⟨c, q, rfl, hc, _, _⟩ := h
  intro a b e; cases e; exact hc

theorem listOf_starts {more : Str → Option (List Val × Str)} {s : Str} (h : ∀ q, s ≠ ']' :: q) {vs : List Val} {r : Str} (hm : more s = some (vs, r)) :
    listOf more s = some (.list vs, r) := by
  unfold listOf
  split
  · rename_i q; exact absurd rfl (h q)
  · rw [hm]

theorem dictOf_starts {more : Str → Option (List (Str × Val) × Str)} {s : Str} (h : ∀ q, s ≠ '}' :: q) {vs : List (Str × Val)} {r : Str}
    (hm : more s = some (vs, r)) : dictOf more s = some (.dict (ofPairs vs), r) := by
  unfold dictOf
  split
  · rename_i q; exact absurd rfl (h q)
  · rw [hm]

/-- the items do not begin with a bracket -/
theorem items_starts {fl : Str → Str} {t : Str} {vs : List Val} (h : JItems fl t vs) (r q : Str) : skipWs (t ++ r) ≠ ']' :: q := by
  have key : ∀ a b : Str, JBlank a → Starts b → ∀ r, skipWs (a ++ (b ++ r)) ≠ ']' :: q := by
    intro a b ha hb r
    rw [skipWs_append ha, skipWs_noWs (starts_noWs hb)]
    obtain ⟨c, x, rfl, _, h2, _⟩ := hb
    intro e; cases e; exact h2 rfl
  cases h with
  | one ha hv hb => rw [List.append_assoc, List.append_assoc]; exact key _ _ ha (text_starts hv) _
  | cons ha hv hb hq => rw [List.append_assoc, List.append_assoc]; exact key _ _ ha (text_starts hv) _

theorem quoted_starts {k n : Str} (h : JQuoted k n) : Starts k := by
  obtain ⟨b, rfl, _⟩ := h
  exact ⟨_, _, rfl, by decide, by decide, by decide⟩

theorem members_starts {fl : Str → Str} {t : Str} {vs : List (Str × Val)} (h : JMembers fl t vs) (r q : Str) : skipWs (t ++ r) ≠ '}' :: q := by
  have key : ∀ a b : Str, JBlank a → Starts b → ∀ r, skipWs (a ++ (b ++ r)) ≠ '}' :: q := by
    intro a b ha hb r
    rw [skipWs_append ha, skipWs_noWs (starts_noWs hb)]
    obtain ⟨c, x, rfl, _, _, h2⟩ := hb
    intro e; cases e; exact h2 rfl
  cases h with
  | one ha hk _ _ hv hb => rw [List.append_assoc, List.append_assoc]; exact key _ _ ha (quoted_starts hk) _
  | cons ha hk _ _ hv hb hq => rw [List.append_assoc, List.append_assoc]; exact key _ _ ha (quoted_starts hk) _

theorem succ_of_lt {a n : Nat} (h : a < n) : ∃ m, n = m + 1 ∧ a ≤ m := ⟨n - 1, by omega, by omega⟩

mutual
theorem value_complete {fl : Str → Str} : ∀ {t : Str} {v : Val}, JText fl t v → ∀ (n : Nat) (r : Str), t.length ≤ n → Stop r →
    value fl n (t ++ r) = some (v, r)
  | _, _, .null, n, r, hn, hr => by
    obtain ⟨m, rfl, _⟩ := succ_of_lt (a := 3) (n := n) hn
    exact (value_scalar fl m _ (by decide) (by decide) (by decide)).trans (word_complete c!"null" r .none)
  | _, _, .true, n, r, hn, hr => by
    obtain ⟨m, rfl, _⟩ := succ_of_lt (a := 3) (n := n) hn
    exact (value_scalar fl m _ (by decide) (by decide) (by decide)).trans (word_complete c!"true" r (.bool true))
  | _, _, .false, n, r, hn, hr => by
    obtain ⟨m, rfl, _⟩ := succ_of_lt (a := 4) (n := n) hn
    exact (value_scalar fl m _ (by decide) (by decide) (by decide)).trans (word_complete c!"false" r (.bool false))
  | _, _, .nan, n, r, hn, hr => by
    obtain ⟨m, rfl, _⟩ := succ_of_lt (a := 2) (n := n) hn
    exact (value_scalar fl m _ (by decide) (by decide) (by decide)).trans (word_complete c!"NaN" r (.flt c!"nan"))
  | _, _, .inf, n, r, hn, hr => by
    obtain ⟨m, rfl, _⟩ := succ_of_lt (a := 7) (n := n) hn
    exact (value_scalar fl m _ (by decide) (by decide) (by decide)).trans (word_complete c!"Infinity" r (.flt c!"inf"))
  | _, _, .negInf, n, r, hn, hr => by
    obtain ⟨m, rfl, _⟩ := succ_of_lt (a := 8) (n := n) hn
    refine (value_scalar fl m _ (by decide) (by decide) (by decide)).trans ?_
    rfl
  | _, _, .int hd, n, r, hn, hr => by
    obtain ⟨c, cs, rfl, hc⟩ := intDigits_head hd
    obtain ⟨m, rfl, _⟩ := succ_of_lt (a := cs.length) (n := n) hn
    refine (value_scalar fl m _ (digit_ne hc rfl) (digit_ne hc rfl) (digit_ne hc rfl)).trans ?_
    rw [List.append_eq, scalar_unsigned fl _ hc]
    rw [← List.cons_append, unsigned_int fl false hd hr, intVal, natOfDigits_decimal]; rfl
  | _, _, .negInt hd, n, r, hn, hr => by
    obtain ⟨c, cs, rfl, hc⟩ := intDigits_head hd
    obtain ⟨m, rfl, _⟩ := succ_of_lt (a := cs.length + 1) (n := n) hn
    refine (value_scalar fl m _ (by decide) (by decide) (by decide)).trans ?_
    rw [List.append_eq, List.cons_append, scalar_minus fl _ hc, ← List.cons_append, unsigned_int fl true hd hr, intVal, natOfDigits_decimal]; rfl
  | _, _, .flt hs hd hf he hne, n, r, hn, hr => by
    obtain ⟨c, cs, rfl, hc⟩ := intDigits_head hd
    rcases hs with rfl | rfl
    · obtain ⟨m, rfl, _⟩ := succ_of_lt (a := 0) (n := n) (by simp at hn; omega)
      refine (value_scalar fl m _ (digit_ne hc rfl) (digit_ne hc rfl) (digit_ne hc rfl)).trans ?_
      refine (scalar_unsigned fl _ hc).trans ?_
      have := unsigned_flt fl false hd hf he hne hr
      simpa using this
    · obtain ⟨m, rfl, _⟩ := succ_of_lt (a := 0) (n := n) (by simp at hn; omega)
      refine (value_scalar fl m _ (by decide) (by decide) (by decide)).trans ?_
      refine (scalar_minus fl _ hc).trans ?_
      have := unsigned_flt fl true hd hf he hne hr
      simpa using this
  | _, _, .str hq, n, r, hn, hr => by
    obtain ⟨b, rfl, hb⟩ := hq
    obtain ⟨m, rfl, _⟩ := succ_of_lt (a := 0) (n := n) (by simp at hn; omega)
    rw [List.cons_append, value, if_pos rfl, List.append_assoc]
    exact textOf_complete hb r
  | _, _, .emptyList hw, n, r, hn, hr => by
    obtain ⟨m, rfl, _⟩ := succ_of_lt (a := 0) (n := n) (by simp at hn; omega)
    rw [List.cons_append, value, if_neg (by decide), if_pos rfl, List.append_assoc, List.cons_append, skipWs_blank_cons hw (by decide)]
    rfl
  | _, _, .emptyDict hw, n, r, hn, hr => by
    obtain ⟨m, rfl, _⟩ := succ_of_lt (a := 0) (n := n) (by simp at hn; omega)
    rw [List.cons_append, value, if_neg (by decide), if_neg (by decide), if_pos rfl, List.append_assoc, List.cons_append,
      skipWs_blank_cons hw (by decide)]
    rfl
  | _, _, .list (t := t) hi, n, r, hn, hr => by
    obtain ⟨m, rfl, hm⟩ := succ_of_lt (a := t.length + 1) (n := n) (by simp at hn; omega)
    rw [List.cons_append, value, if_neg (by decide), if_pos rfl, List.append_assoc, List.cons_append]
    exact listOf_starts (items_starts hi _) (items_complete hi m r (by omega))
  | _, _, .dict (t := t) hi, n, r, hn, hr => by
    obtain ⟨m, rfl, hm⟩ := succ_of_lt (a := t.length + 1) (n := n) (by simp at hn; omega)
    rw [List.cons_append, value, if_neg (by decide), if_neg (by decide), if_pos rfl, List.append_assoc, List.cons_append]
    exact dictOf_starts (members_starts hi _) (members_complete hi m r (by omega))
theorem items_complete {fl : Str → Str} : ∀ {t : Str} {vs : List Val}, JItems fl t vs → ∀ (n : Nat) (r : Str), t.length < n →
    items fl n (skipWs (t ++ ']' :: r)) = some (vs, r)
  | _, _, .one (a := a) (t := t) (b := b) ha hv hb, n, r, hn => by
    obtain ⟨m, rfl, hm⟩ := succ_of_lt hn
    simp only [List.length_append] at hm
    rw [List.append_assoc, skipWs_append ha, List.append_assoc, skipWs_noWs (starts_noWs (text_starts hv)), items,
      value_complete hv m _ (by omega) (stop_blank hb (stop_cons (by simp)))]
    simp only
    rw [skipWs_blank_cons hb (by decide)]
    rfl
  | _, _, .cons (a := a) (t := t) (b := b) (q := q) ha hv hb hq, n, r, hn => by
    obtain ⟨m, rfl, hm⟩ := succ_of_lt hn
    simp only [List.length_append, List.length_cons] at hm
    rw [List.append_assoc, skipWs_append ha, List.append_assoc, skipWs_noWs (starts_noWs (text_starts hv)), items, List.append_assoc, List.cons_append,
      value_complete hv m _ (by omega) (stop_blank hb (stop_cons (by simp)))]
    simp only
    rw [skipWs_blank_cons hb (by decide)]
    simp only [nextItem]
    rw [items_complete hq m r (by omega)]
theorem members_complete {fl : Str → Str} : ∀ {t : Str} {vs : List (Str × Val)}, JMembers fl t vs → ∀ (n : Nat) (r : Str), t.length < n →
    members fl n (skipWs (t ++ '}' :: r)) = some (vs, r)
  | _, _, .one (a := a) (k := k) (b := b) (c := c) (t := t) (d := d) ha hk hb hc hv hd, n, r, hn => by
    obtain ⟨m, rfl, hm⟩ := succ_of_lt hn
    simp only [List.length_append, List.length_cons] at hm
    simp only [List.append_assoc, List.cons_append]
    rw [skipWs_append ha, skipWs_noWs (starts_noWs (quoted_starts hk)), members, keyPart_complete hk hb hc (starts_noWs (text_starts hv))]
    simp only
    rw [value_complete hv m _ (by omega) (stop_blank hd (stop_cons (by simp)))]
    simp only
    rw [skipWs_blank_cons hd (by decide)]
    rfl
  | _, _, .cons (a := a) (k := k) (b := b) (c := c) (t := t) (d := d) (q := q) ha hk hb hc hv hd hq, n, r, hn => by
    obtain ⟨m, rfl, hm⟩ := succ_of_lt hn
    simp only [List.length_append, List.length_cons] at hm
    simp only [List.append_assoc, List.cons_append]
    rw [skipWs_append ha, skipWs_noWs (starts_noWs (quoted_starts hk)), members, keyPart_complete hk hb hc (starts_noWs (text_starts hv))]
    simp only
    rw [value_complete hv m _ (by omega) (stop_blank hd (stop_cons (by simp)))]
    simp only
    rw [skipWs_blank_cons hd (by decide)]
    simp only [nextMember]
    rw [members_complete hq m r (by omega)]
end

/-- the reader accepts the documents of the grammar, with their values -/
theorem loads_iff (fl : Str → Str) (s : Str) (v : Val) : loads fl s = some v ↔ JDocument fl s v := by
  constructor
  · intro h
    unfold loads at h
    split at h
    · rename_i v' r hv
      split at h
      · rename_i hr
        cases h
        obtain ⟨t, et, ht⟩ := (sound fl _).1 _ _ _ hv
        obtain ⟨w, ew, hw⟩ := skipWs_split s
        obtain ⟨w', ew', hw'⟩ := skipWs_split r
        rw [hr, List.append_nil] at ew'
        exact ⟨w, t, r, by rw [← et, ← ew], hw, ht, ew' ▸ hw'⟩
      · cases h
    · cases h
  · rintro ⟨a, b, c, rfl, ha, hb, hc⟩
    unfold loads
    rw [skipWs_append ha, skipWs_noWs (starts_noWs (text_starts hb)),
      value_complete hb _ _ (by simp; omega) (by have := stop_blank hc stop_nil; rwa [List.append_nil] at this)]
    simp only
    have : skipWs c = [] := by have := skipWs_append (r := []) hc; rwa [List.append_nil] at this
    rw [if_pos this]

end TTP.Json
