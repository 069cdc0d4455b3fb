import Verif.Proofs.Patterns
/-! # The trees of the named patterns and what they match -/

namespace TTP
open Py Py.Re Py.ReText Spec

/-- `[0-9]` -/
def ccDig : CC := .set false [.range '0' '9']
/-- `[a-fA-F0-9]` -/
def ccHex6 : CC := .set false [.range 'a' 'f', .range 'A' 'F', .range '0' '9']
/-- `[0-9a-fA-F]` -/
def ccHexM : CC := .set false [.range '0' '9', .range 'a' 'f', .range 'A' 'F']

/-- tree of `IP`, the rest follows -/
def ipTree (t : Re) : Re :=
  .seq (times 3 (.seq (times 1 (.cls ccDig) (atMost true 2 (.cls ccDig))) (.seq (.cls (.lit '.')) .eps)) .eps)
    (.seq (times 1 (.cls ccDig) (atMost true 2 (.cls ccDig))) t)

/-- tree of `IPV6`, the rest follows -/
def ip6Tree (t : Re) : Re :=
  let w : Re := .alt (.seq (times 1 (.cls ccHex6) (atMost true 3 (.cls ccHex6))) (.seq (.cls (.lit ':')) .eps)) (.seq (.cls (.lit ':')) .eps)
  .seq (times 1 w (atMost true 6 w))
    (.seq (.alt (.seq (times 1 (.cls ccHex6) (atMost true 3 (.cls ccHex6))) .eps) (.seq (atMost true 1 (.cls (.lit ':'))) .eps)) t)

/-- tree of one form of `MAC` -/
def macTree (k n : Nat) : Re :=
  .seq (times n (.seq (times k (.cls ccHexM) .eps)
      (.seq (.alt (.seq (.cls (.lit ':')) .eps) (.alt (.seq (.cls (.lit '.')) .eps) (.seq (.cls (.lit '-')) .eps))) .eps)) .eps)
    (.seq (.seq (times k (.cls ccHexM) .eps) .eps) .eps)

theorem compile_ip : compile c!"(?:[0-9]{1,3}\\.){3}[0-9]{1,3}" = some (ipTree .eps) := by decide +kernel
theorem compile_prefix : compile c!"(?:[0-9]{1,3}\\.){3}[0-9]{1,3}/[0-9]{1,2}" =
    some (ipTree (.seq (.cls (.lit '/')) (.seq (times 1 (.cls ccDig) (atMost true 1 (.cls ccDig))) .eps))) := by decide +kernel
theorem compile_ip6 : compile c!"(?:[a-fA-F0-9]{1,4}:|:){1,7}(?:[a-fA-F0-9]{1,4}|:?)" = some (ip6Tree .eps) := by decide +kernel
theorem compile_prefix6 : compile c!"(?:[a-fA-F0-9]{1,4}:|:){1,7}(?:[a-fA-F0-9]{1,4}|:?)/[0-9]{1,3}" =
    some (ip6Tree (.seq (.cls (.lit '/')) (.seq (times 1 (.cls ccDig) (atMost true 2 (.cls ccDig))) .eps))) := by decide +kernel
theorem compile_mac :
    compile c!"(?:[0-9a-fA-F]{2}(:|\\.|\\-)){5}([0-9a-fA-F]{2})|(?:[0-9a-fA-F]{4}(:|\\.|\\-)){2}([0-9a-fA-F]{4})" =
      some (.alt (macTree 2 5) (macTree 4 2)) := by decide +kernel

/-- tree of `PHRASE` and `ROW` -/
def wordsTree (gap : Re) : Re :=
  .seq (times 1 (.seq (Re.plus true (.cls .nspace)) (.seq gap .eps)) (.star false (.seq (Re.plus true (.cls .nspace)) (.seq gap .eps))))
    (.seq (Re.plus true (.cls .nspace)) .eps)

theorem compile_word : compile c!"\\S+" = some (.seq (Re.plus true (.cls .nspace)) .eps) := by decide +kernel
theorem compile_digit : compile c!"\\d+" = some (.seq (Re.plus true (.cls .digit)) .eps) := by decide +kernel
theorem compile_line : compile c!".+" = some (.seq (Re.plus true (.cls .dot)) .eps) := by decide +kernel
theorem compile_phrase : compile c!"(\\S+ {1})+?\\S+" = some (wordsTree (.seq (.cls (.lit ' ')) .eps)) := by decide +kernel
theorem compile_row : compile c!"(\\S+ +)+?\\S+" = some (wordsTree (Re.plus true (.cls (.lit ' ')))) := by decide +kernel
theorem compile_orphrase : compile c!"\\S+|(\\S+ {1})+?\\S+" =
    some (.alt (.seq (Re.plus true (.cls .nspace)) .eps) (wordsTree (.seq (.cls (.lit ' ')) .eps))) := by decide +kernel

theorem dig_iff (x : Char) : ccDig.test x = true ↔ Digit x := by
  simp only [ccDig, CC.test, CItem.test, Digit, isDigit, List.any_cons, List.any_nil, bne_iff_ne, ne_eq, Bool.not_eq_false,
    Bool.or_false]
  exact Iff.rfl

theorem hex6_iff (x : Char) : ccHex6.test x = true ↔ HexDigit x := by
  simp only [ccHex6, CC.test, CItem.test, HexDigit, Char.le_def, UInt32.le_iff_toNat_le, Char.toNat, List.any_cons, List.any_nil,
    bne_iff_ne, ne_eq, Bool.not_eq_false, Bool.or_eq_true, Bool.and_eq_true, decide_eq_true_eq, Bool.or_false]
  grind

theorem hexM_iff (x : Char) : ccHexM.test x = true ↔ HexDigit x := by
  simp only [ccHexM, CC.test, CItem.test, HexDigit, Char.le_def, UInt32.le_iff_toNat_le, Char.toNat, List.any_cons, List.any_nil,
    bne_iff_ne, ne_eq, Bool.not_eq_false, Bool.or_eq_true, Bool.and_eq_true, decide_eq_true_eq, Bool.or_false]

theorem lang_word : Lang (Re.plus true (.cls .nspace)) Word :=
  (Lang.plusCls true .nspace).congr (fun s => by simp [Word, CC.test])

theorem lang_dig (k : Nat) : Lang (times 1 (.cls ccDig) (atMost true k (.cls ccDig))) (DigitsN 1 (1 + k)) :=
  Lang.count true 1 k ccDig dig_iff

theorem lang_ip {t : Re} {M : Str → Prop} (ht : Lang t M) : Lang (ipTree t) (fun s => ∃ u v, Ip4Text u ∧ M v ∧ s = u ++ v) := by
  have hd := lang_dig 2
  refine (((hd.seq (Lang.lit '.').seqEps).times 3 Lang.eps).seq (hd.seq ht)).congr (fun s => ?_)
  constructor
  · rintro ⟨u, v, ⟨u', e, hc, rfl, rfl⟩, ⟨d, w, hd', hw, rfl⟩, rfl⟩
    obtain ⟨x, r, ⟨a, _, ha, rfl, rfl⟩, hr, rfl⟩ := Cat.succ.1 hc
    obtain ⟨y, r2, ⟨b, _, hb, rfl, rfl⟩, hr2, rfl⟩ := Cat.succ.1 hr
    obtain ⟨z, r3, ⟨c, _, hc', rfl, rfl⟩, hr3, rfl⟩ := Cat.succ.1 hr2
    obtain rfl := Cat.zero.1 hr3
    exact ⟨_, w, ⟨a, b, c, d, ha, hb, hc', hd', rfl⟩, hw, by simp⟩
  · rintro ⟨_, w, ⟨a, b, c, d, ha, hb, hc, hd', rfl⟩, hw, rfl⟩
    refine ⟨a ++ c!"." ++ (b ++ c!"." ++ (c ++ c!".")), d ++ w, ⟨_, [], ?_, rfl, (List.append_nil _).symm⟩, ⟨d, w, hd', hw, rfl⟩, by simp⟩
    exact Cat.succ.2 ⟨_, _, ⟨a, _, ha, rfl, rfl⟩, Cat.succ.2 ⟨_, _, ⟨b, _, hb, rfl, rfl⟩,
      Cat.succ.2 ⟨_, [], ⟨c, _, hc, rfl, rfl⟩, Cat.zero.2 rfl, (List.append_nil _).symm⟩, rfl⟩, rfl⟩

theorem cat_times {L : Str → Prop} {k : Nat} {s : Str} :
    (∃ u v, Cat L 1 u ∧ (∃ j, j ≤ k ∧ Cat L j v) ∧ s = u ++ v) ↔ ∃ n, 1 ≤ n ∧ n ≤ 1 + k ∧ Cat L n s := by
  constructor
  · rintro ⟨u, v, ⟨us, e1, h1, rfl⟩, ⟨j, hj, vs, e2, h2, rfl⟩, rfl⟩
    refine ⟨1 + j, by omega, by omega, us ++ vs, by simp [e1, e2], ?_, by simp⟩
    intro w hw
    rcases List.mem_append.1 hw with hw | hw
    · exact h1 w hw
    · exact h2 w hw
  · rintro ⟨n, h1, h2, hc⟩
    obtain ⟨m, rfl⟩ : ∃ m, n = m + 1 := ⟨n - 1, by omega⟩
    obtain ⟨u, v, hu, hv, rfl⟩ := Cat.succ.1 hc
    exact ⟨u, v, Cat.succ.2 ⟨u, [], hu, Cat.zero.2 rfl, (List.append_nil _).symm⟩, ⟨m, by omega, hv⟩, rfl⟩

theorem hexN_zero {s : Str} {k : Nat} : HexN 0 k s ↔ s = [] ∨ HexN 1 k s := by
  unfold HexN
  constructor
  · rintro ⟨_, h2, h3⟩
    cases s with
    | nil => exact Or.inl rfl
    | cons c s => exact Or.inr ⟨by simp, h2, h3⟩
  · rintro (rfl | ⟨_, h2, h3⟩)
    · exact ⟨by simp, by simp, by simp⟩
    · exact ⟨by simp, h2, h3⟩

theorem cat_map {L M : Str → Prop} {f : Str → Str} {n : Nat} {s : Str} (h : ∀ w, L w ↔ ∃ v, M v ∧ w = f v) :
    Cat L n s ↔ ∃ ws : List Str, ws.length = n ∧ (∀ w ∈ ws, M w) ∧ s = (ws.map f).flatten := by
  induction n generalizing s with
  | zero =>
    rw [Cat.zero]
    constructor
    · rintro rfl; exact ⟨[], rfl, by simp, rfl⟩
    · rintro ⟨ws, e, _, rfl⟩; rw [List.length_eq_zero_iff.1 e]; rfl
  | succ n ih =>
    rw [Cat.succ]
    constructor
    · rintro ⟨u, v, hu, hv, rfl⟩
      obtain ⟨w, hw, rfl⟩ := (h u).1 hu
      obtain ⟨ws, e, hws, rfl⟩ := ih.1 hv
      refine ⟨w :: ws, by simp [e], ?_, by simp⟩
      intro x hx
      rcases List.mem_cons.1 hx with rfl | hx
      · exact hw
      · exact hws x hx
    · rintro ⟨ws, e, hws, rfl⟩
      cases ws with
      | nil => cases e
      | cons w ws =>
        exact ⟨f w, _, (h _).2 ⟨w, hws w (by simp), rfl⟩, ih.2 ⟨ws, by simpa using e, fun x hx => hws x (by simp [hx]), rfl⟩, by simp⟩

theorem lang_hex6 : Lang (times 1 (.cls ccHex6) (atMost true 3 (.cls ccHex6))) (HexN 1 4) := Lang.count true 1 3 ccHex6 hex6_iff

theorem lang_ip6 {t : Re} {M : Str → Prop} (ht : Lang t M) : Lang (ip6Tree t) (fun s => ∃ u v, Ip6Text u ∧ M v ∧ s = u ++ v) := by
  have hw : Lang (.alt (.seq (times 1 (.cls ccHex6) (atMost true 3 (.cls ccHex6))) (.seq (.cls (.lit ':')) .eps)) (.seq (.cls (.lit ':')) .eps))
      (fun s => ∃ v, HexN 0 4 v ∧ s = v ++ c!":") := by
    refine ((lang_hex6.seq (Lang.lit ':').seqEps).alt (Lang.lit ':').seqEps).congr (fun s => ?_)
    constructor
    · rintro (⟨u, _, hu, rfl, rfl⟩ | rfl)
      · exact ⟨u, hexN_zero.2 (Or.inr hu), rfl⟩
      · exact ⟨[], hexN_zero.2 (Or.inl rfl), rfl⟩
    · rintro ⟨v, hv, rfl⟩
      rcases hexN_zero.1 hv with rfl | hv
      · exact Or.inr rfl
      · exact Or.inl ⟨v, _, hv, rfl, rfl⟩
  have ho : Lang (.alt (.seq (times 1 (.cls ccHex6) (atMost true 3 (.cls ccHex6))) .eps) (.seq (atMost true 1 (.cls (.lit ':'))) .eps))
      (fun s => HexN 0 4 s ∨ s = c!":") := by
    refine (lang_hex6.seqEps.alt ((Lang.lit ':').atMost true 1).seqEps).congr (fun s => ?_)
    constructor
    · rintro (h | ⟨k, hk, h⟩)
      · exact Or.inl (hexN_zero.2 (Or.inr h))
      · cases k with
        | zero => exact Or.inl (hexN_zero.2 (Or.inl (Cat.zero.1 h)))
        | succ k =>
          have : k = 0 := by omega
          subst this
          obtain ⟨u, v, rfl, hv, rfl⟩ := Cat.succ.1 h
          rw [Cat.zero.1 hv]; exact Or.inr rfl
    · rintro (h | rfl)
      · rcases hexN_zero.1 h with rfl | h
        · exact Or.inr ⟨0, by omega, Cat.zero.2 rfl⟩
        · exact Or.inl h
      · exact Or.inr ⟨1, by omega, Cat.succ.2 ⟨_, [], rfl, Cat.zero.2 rfl, rfl⟩⟩
  refine ((hw.times 1 (hw.atMost true 6)).seq (ho.seq ht)).congr (fun s => ?_)
  simp only [cat_times]
  constructor
  · rintro ⟨u, v, ⟨n, h1, h2, hc⟩, ⟨a, b, ha, hb, rfl⟩, rfl⟩
    obtain ⟨ws, e, hws, rfl⟩ := (cat_map (fun w => Iff.rfl)).1 hc
    exact ⟨_, b, ⟨ws, a, by omega, by omega, hws, ha, rfl⟩, hb, by simp⟩
  · rintro ⟨_, b, ⟨ws, a, h1, h2, hws, ha, rfl⟩, hb, rfl⟩
    exact ⟨_, _, ⟨ws.length, h1, h2, (cat_map (fun w => Iff.rfl)).2 ⟨ws, rfl, hws, rfl⟩⟩, ⟨a, b, ha, hb, rfl⟩, by simp⟩

theorem lang_hexM (k : Nat) : Lang (times k (.cls ccHexM) .eps) (HexN k k) := by
  have h := Lang.count true k 0 ccHexM hexM_iff
  exact h.congr (fun s => by simp [HexN])

theorem lang_mac (k n : Nat) : Lang (macTree k n) (HexPieces k n) := by
  have hs : Lang (.alt (.seq (.cls (.lit ':')) .eps) (.alt (.seq (.cls (.lit '.')) .eps) (.seq (.cls (.lit '-')) .eps)))
      (fun s => s = c!":" ∨ s = c!"." ∨ s = c!"-") := (Lang.lit ':').seqEps.alt ((Lang.lit '.').seqEps.alt (Lang.lit '-').seqEps)
  refine ((((lang_hexM k).seq hs.seqEps).times n Lang.eps).seq (lang_hexM k).seqEps.seqEps).congr (fun s => ?_)
  induction n generalizing s with
  | zero =>
    constructor
    · rintro ⟨u, v, ⟨a, b, ha, rfl, rfl⟩, hv, rfl⟩
      rw [Cat.zero.1 ha]; exact hv
    · intro h
      exact ⟨[], s, ⟨[], [], Cat.zero.2 rfl, rfl, rfl⟩, h, rfl⟩
  | succ n ih =>
    constructor
    · rintro ⟨u, v, ⟨a, b, ha, rfl, rfl⟩, hv, rfl⟩
      obtain ⟨_, r, ⟨w, x, hw, hx, rfl⟩, hr, rfl⟩ := Cat.succ.1 ha
      have hin := (ih (r ++ v)).1 ⟨r, v, ⟨r, [], hr, rfl, (List.append_nil _).symm⟩, hv, rfl⟩
      rcases hx with rfl | rfl | rfl
      · exact ⟨w, ':', _, hw, Or.inl rfl, by simp, hin⟩
      · exact ⟨w, '.', _, hw, Or.inr (Or.inl rfl), by simp, hin⟩
      · exact ⟨w, '-', _, hw, Or.inr (Or.inr rfl), by simp, hin⟩
    · rintro ⟨w, c, rest, hw, hc, rfl, hp⟩
      obtain ⟨u, v, ⟨a, b, ha, rfl, rfl⟩, hv, rfl⟩ := (ih rest).2 hp
      refine ⟨(w ++ [c]) ++ a, v, ⟨(w ++ [c]) ++ a, [], Cat.succ.2 ⟨_, a, ⟨w, [c], hw, ?_, rfl⟩, ha, rfl⟩, rfl, (List.append_nil _).symm⟩, hv, by simp⟩
      rcases hc with rfl | rfl | rfl
      · exact Or.inl rfl
      · exact Or.inr (Or.inl rfl)
      · exact Or.inr (Or.inr rfl)

/-- words with gaps between them; at least one gap -/
theorem lang_words {gap : Re} {G : Str → Prop} (hg : Lang gap G) :
    Lang (wordsTree gap) (fun s => ∃ n, 1 ≤ n ∧ ∃ u v, Cat (fun w => ∃ a g, Word a ∧ G g ∧ w = a ++ g) n u ∧ Word v ∧ s = u ++ v) := by
  have hu := lang_word.seq hg.seqEps
  refine ((hu.times 1 (hu.star false ?_)).seq lang_word.seqEps).congr (fun s => ?_)
  · rintro _ ⟨a, g, ha, _, rfl⟩ e
    exact ha.1 (List.append_eq_nil_iff.1 e).1
  · constructor
    · rintro ⟨_, w, ⟨u, v, hu, ⟨n, hv⟩, rfl⟩, hw, rfl⟩
      obtain ⟨us, e1, h1, rfl⟩ := hu
      obtain ⟨vs, e2, h2, rfl⟩ := hv
      refine ⟨1 + n, by omega, _, w, ⟨us ++ vs, by simp [e1, e2], ?_, by simp⟩, hw, rfl⟩
      intro x hx
      rcases List.mem_append.1 hx with hx | hx
      · exact h1 x hx
      · exact h2 x hx
    · rintro ⟨n, hn, u, v, hu, hv, rfl⟩
      obtain ⟨m, rfl⟩ : ∃ m, n = m + 1 := ⟨n - 1, by omega⟩
      obtain ⟨x, r, hx, hr, rfl⟩ := Cat.succ.1 hu
      exact ⟨_, v, ⟨x, r, Cat.succ.2 ⟨x, [], hx, Cat.zero.2 rfl, (List.append_nil _).symm⟩, ⟨m, hr⟩, rfl⟩, hv, rfl⟩

theorem lang_phrase : Lang (wordsTree (.seq (.cls (.lit ' ')) .eps)) PhraseText := by
  refine (lang_words (Lang.lit ' ').seqEps).congr (fun s => ?_)
  constructor
  · rintro ⟨n, hn, u, v, hu, hv, rfl⟩
    obtain ⟨m, rfl⟩ : ∃ m, n = m + 1 := ⟨n - 1, by omega⟩
    clear hn
    induction m generalizing u with
    | zero =>
      obtain ⟨_, r, ⟨a, _, ha, rfl, rfl⟩, hr, rfl⟩ := Cat.succ.1 hu
      rw [Cat.zero.1 hr]
      simpa using PhraseText.two a v ha hv
    | succ m ih =>
      obtain ⟨_, r, ⟨a, _, ha, rfl, rfl⟩, hr, rfl⟩ := Cat.succ.1 hu
      simpa using PhraseText.more a _ ha (ih r hr)
  · intro h
    induction h with
    | two a b ha hb =>
      exact ⟨1, by omega, a ++ [' '], b, Cat.succ.2 ⟨_, [], ⟨a, _, ha, rfl, rfl⟩, Cat.zero.2 rfl, (List.append_nil _).symm⟩, hb, by simp⟩
    | more a s ha hs ih =>
      obtain ⟨n, hn, u, v, hu, hv, rfl⟩ := ih
      exact ⟨n + 1, by omega, (a ++ [' ']) ++ u, v, Cat.succ.2 ⟨_, _, ⟨a, _, ha, rfl, rfl⟩, hu, rfl⟩, hv, by simp⟩

theorem blanks_iff (g : Str) : (g ≠ [] ∧ ∀ x ∈ g, CC.test (.lit ' ') x = true) ↔ ∃ n, g = List.replicate (n + 1) ' ' := by
  constructor
  · rintro ⟨h1, h2⟩
    refine ⟨g.length - 1, ?_⟩
    have : g.length ≠ 0 := fun e => h1 (List.length_eq_zero_iff.1 e)
    refine List.eq_replicate_iff.2 ⟨by omega, fun x hx => ?_⟩
    have := h2 x hx
    simp only [CC.test, beq_iff_eq] at this
    exact this.symm
  · rintro ⟨n, rfl⟩
    refine ⟨by rw [List.replicate_succ]; exact List.cons_ne_nil _ _, fun x hx => ?_⟩
    rw [List.eq_of_mem_replicate hx]; rfl

theorem lang_row : Lang (wordsTree (Re.plus true (.cls (.lit ' ')))) RowText := by
  refine (lang_words ((Lang.plusCls true (.lit ' ')).congr blanks_iff)).congr (fun s => ?_)
  constructor
  · rintro ⟨n, hn, u, v, hu, hv, rfl⟩
    obtain ⟨m, rfl⟩ : ∃ m, n = m + 1 := ⟨n - 1, by omega⟩
    clear hn
    induction m generalizing u with
    | zero =>
      obtain ⟨_, r, ⟨a, _, ha, ⟨k, rfl⟩, rfl⟩, hr, rfl⟩ := Cat.succ.1 hu
      rw [Cat.zero.1 hr, List.append_nil]
      exact RowText.two a v k ha hv
    | succ m ih =>
      obtain ⟨_, r, ⟨a, _, ha, ⟨k, rfl⟩, rfl⟩, hr, rfl⟩ := Cat.succ.1 hu
      rw [List.append_assoc]
      exact RowText.more a _ k ha (ih r hr)
  · intro h
    induction h with
    | two a b k ha hb =>
      exact ⟨1, by omega, a ++ List.replicate (k + 1) ' ', b,
        Cat.succ.2 ⟨_, [], ⟨a, _, ha, ⟨k, rfl⟩, rfl⟩, Cat.zero.2 rfl, (List.append_nil _).symm⟩, hb, rfl⟩
    | more a s k ha hs ih =>
      obtain ⟨n, hn, u, v, hu, hv, rfl⟩ := ih
      exact ⟨n + 1, by omega, _, v, Cat.succ.2 ⟨_, _, ⟨a, _, ha, ⟨k, rfl⟩, rfl⟩, hu, rfl⟩, hv, by simp⟩

end TTP
