import Verif.Proofs.Line
/-! # Lines made of words and plain variables -/

namespace TTP
open Py Py.Re Spec

theorem subNonWord_word (b : Bool) (n : Str) (h : ∀ c ∈ n, isWord c = true) : subNonWord b n = n := by
  induction n generalizing b with
  | nil => rfl
  | cons c n ih =>
    simp only [subNonWord, h c (by simp), if_true]
    rw [ih _ (fun c hc => h c (by simp [hc]))]

theorem sanitize_word (n : Str) (h : ∀ c ∈ n, isWord c = true) (hd : ∀ c cs, n = c :: cs → isDigit c = false) :
    sanitize n = n := by
  cases n with
  | nil => rfl
  | cons c n =>
    simp only [sanitize, hd c n rfl, Bool.false_eq_true, if_false]
    exact subNonWord_word _ _ h

/-- a plain variable -/
def plainVar (n : Str) : VarInfo := ⟨n, n, .add, false, [], [], false, false, none, false⟩

theorem varInfo_plain (p n q : Str) (h : TokOK (.var p n q)) : varInfo ⟨n, none, []⟩ = plainVar n := by
  obtain ⟨_, h2, h3, h4, _⟩ := h
  simp only [List.mem_cons, List.mem_nil_iff, not_or, or_false] at h4
  simp only [varInfo, List.foldl_nil, sanitize_word n h2 h3, nameAttr, h4.1, h4.2.1, h4.2.2.1, h4.2.2.2, if_false, plainVar]

/-- pieces of an item -/
def tokEls : Tok → List (Elem VarInfo)
  | .word w => chs w
  | .var p n q => chs p ++ .var (plainVar n) :: chs q

/-- pieces of a line -/
def itemEls : List (Str × Tok) → List (Elem VarInfo)
  | [] => []
  | (b, t) :: ts => chs b ++ (tokEls t ++ itemEls ts)

theorem lit_plain (A B : Prop) (p x : Str) (h : ∀ c ∈ p, ¬ Blank c ∧ ¬ Digit c) : LitMatch A B p x ↔ x = p := by
  constructor
  · intro hl
    induction hl with
    | nil => rfl
    | char c t x _ _ _ ih => rw [ih (fun c hc => h c (by simp [hc]))]
    | blankRun b b' t x _ hb =>
      obtain ⟨c, b0, e⟩ := List.exists_cons_of_ne_nil hb.1
      exact absurd (hb.2 c (by simp [e])) (h c (by simp [e])).1
    | digitRun b b' t x _ hb =>
      obtain ⟨c, b0, e⟩ := List.exists_cons_of_ne_nil hb.1
      exact absurd (hb.2 c (by simp [e])) (h c (by simp [e])).2
  · rintro rfl
    induction x with
    | nil => exact .nil
    | cons c x ih =>
      exact .char c x x (fun q => (h c (by simp)).1 q.2) (fun q => (h c (by simp)).2 q.2)
        (ih (fun c hc => h c (by simp [hc])))

theorem blank_space (c : Char) (h : Blank c) : isSpace c = true := isBlank_space c ((isBlank_iff c).2 h)

theorem nspace_not_blank (c : Char) (h : isSpace c = false) : ¬ Blank c := by
  intro hb; rw [blank_space c hb] at h; cases h

theorem mem_WORD (s : Str) (h : Re.Hit) : h ∈ run reWORD s ↔ Word h.1 ∧ h.1 ++ h.2.1 = s ∧ h.2.2 = [] := by
  unfold reWORD Word
  rw [mem_plus_cls, and_assoc]
  simp only [CC.test, Bool.not_eq_true']

theorem mem_plain (p : Str) (hp : ∀ c ∈ p, isSpace c = false ∧ isDigit c = false) (s : Str) (h : Re.Hit) :
    h ∈ run (elemsRe false false .other (chs p)) s ↔ h.1 = p ∧ h.1 ++ h.2.1 = s ∧ h.2.2 = [] := by
  rw [mem_chs, lit_plain]
  intro c hc
  exact ⟨nspace_not_blank c (hp c hc).1, by simp [Digit, (hp c hc).2]⟩

theorem mem_tok (t : Tok) (ht : TokOK t) (s : Str) (h : Re.Hit) :
    h ∈ run (elemsRe false false .other (tokEls t)) s ↔ TokText t h.1 h.2.2 ∧ h.1 ++ h.2.1 = s := by
  cases t with
  | word w =>
    simp only [tokEls, mem_chs, TokText]
    constructor
    · rintro ⟨h1, h2, h3⟩; exact ⟨⟨by simpa using h1, h3⟩, h2⟩
    · rintro ⟨⟨h1, h3⟩, h2⟩; exact ⟨by simpa using h1, h2, h3⟩
  | var p n q =>
    obtain ⟨_, _, _, _, h5⟩ := ht
    have hp := mem_plain p (fun c hc => ⟨(h5 c (by simp [hc])).1, (h5 c (by simp [hc])).2.1⟩)
    have hq := mem_plain q (fun c hc => ⟨(h5 c (by simp [hc])).1, (h5 c (by simp [hc])).2.1⟩)
    simp only [tokEls]
    rw [elemsRe_append, mem_seq]
    have hv : ∀ k, elemsRe false false k (.var (plainVar n) :: chs q) =
      .seq (.cap n reWORD) (elemsRe false false .other (chs q)) := fun k => rfl
    simp only [hv, TokText]
    constructor
    · rintro ⟨h1, m1, h2, m2, rfl⟩
      rw [hp] at m1
      rw [mem_seq] at m2
      obtain ⟨h3, m3, h4, m4, rfl⟩ := m2
      rw [mem_cap] at m3
      obtain ⟨h5, m5, rfl⟩ := m3
      rw [mem_WORD] at m5
      rw [hq] at m4
      refine ⟨⟨h5.1, m5.1, ?_, ?_⟩, ?_⟩
      · simp [m1.1, m4.1]
      · simp [m1.2.2, m4.2.2, m5.2.2]
      · simp only [List.append_assoc]
        rw [m4.2.1]
        rw [m5.2.1, m1.2.1]
    · obtain ⟨x, y, z⟩ := h
      dsimp only
      rintro ⟨⟨v, hw, rfl, rfl⟩, rfl⟩
      refine ⟨(p, v ++ (q ++ y), []), ?_, (v ++ q, y, [(n, v)]), ?_, by simp⟩
      · rw [hp]; simp
      · rw [mem_seq]
        refine ⟨(v, q ++ y, [(n, v)]), ?_, (q, y, []), ?_, by simp⟩
        · rw [mem_cap]
          exact ⟨(v, q ++ y, []), by rw [mem_WORD]; exact ⟨hw, rfl, rfl⟩, by simp⟩
        · rw [hq]; simp

/-- no white space among the literal characters -/
def NoSp (es : List (Elem VarInfo)) : Prop := ∀ c, Elem.ch c ∈ es → isSpace c = false

theorem NoSp_tok (t : Tok) (ht : TokOK t) : NoSp (tokEls t) := by
  intro c hc
  cases t with
  | word w =>
    simp only [tokEls, chs, List.mem_map, Elem.ch.injEq, exists_eq_right] at hc
    exact ht.1.2 c hc
  | var p n q =>
    obtain ⟨_, _, _, _, h5⟩ := ht
    simp only [tokEls, chs, List.mem_append, List.mem_cons, List.mem_map, Elem.ch.injEq, exists_eq_right, reduceCtorEq,
      false_or] at hc
    exact (h5 c (by simpa using hc)).1

theorem endKind_noSp (es : List (Elem VarInfo)) (h : NoSp es) (k : Kind) (hk : k ≠ .blank) :
    endKind false false k es ≠ .blank := by
  induction es generalizing k with
  | nil => exact hk
  | cons e es ih =>
    have hr : NoSp es := fun c hc => h c (by simp [hc])
    cases e with
    | var v => exact ih hr _ (by simp)
    | ch c =>
      have : isBlank c = false := by
        cases hb : isBlank c with
        | false => rfl
        | true => have := isBlank_space c hb; rw [h c (by simp)] at this; cases this
      simp only [endKind, this, Bool.and_false, Bool.false_eq_true, if_false]
      split
      · exact ih hr _ (by simp)
      · exact ih hr _ (by simp)

theorem tokEls_start (t : Tok) (ht : TokOK t) (rest : List (Elem VarInfo)) : ¬ startsCh Blank (tokEls t ++ rest) := by
  have hns := NoSp_tok t ht
  cases he : tokEls t with
  | nil =>
    cases t with
    | word w =>
      simp only [tokEls, chs, List.map_eq_nil_iff] at he
      exact absurd he ht.1.1
    | var p n q => simp [tokEls] at he
  | cons e es =>
    cases e with
    | var v => exact id
    | ch c => exact nspace_not_blank c (hns c (by simp [he]))

theorem elemsRe_blankRun (k : Kind) (hk : k ≠ .blank) (b : Str) (hb : Blanks b) (rest : List (Elem VarInfo))
    (hr : ¬ startsCh Blank rest) :
    elemsRe false false k (chs b ++ rest) = .seq blanksRe (elemsRe false false .other rest) := by
  obtain ⟨c, b0, e⟩ := List.exists_cons_of_ne_nil hb.1
  have hc : isBlank c = true := (isBlank_iff c).2 (hb.2 c (by simp [e]))
  rw [e]
  simp only [chs, List.map_cons, List.cons_append, elemsRe, hc, Bool.not_false, Bool.and_self, if_true, hk, if_false]
  have := elemsRe_blanks false b0 (fun c hc => hb.2 c (by simp [e, hc])) rest
  simp only [chs] at this
  rw [this, elemsRe_kind_blank _ _ _ hr]

/-- items after the first -/
theorem mem_items (ts : List (Str × Tok)) (hts : ∀ i ∈ ts, Blanks i.1 ∧ TokOK i.2) (k : Kind) (hk : k ≠ .blank)
    (s : Str) (h : Re.Hit) :
    h ∈ run (elemsRe false false k (itemEls ts)) s ↔ Renders ts h.1 h.2.2 ∧ h.1 ++ h.2.1 = s := by
  induction ts generalizing k s h with
  | nil =>
    obtain ⟨x, y, z⟩ := h
    simp only [itemEls, elemsRe, mem_eps, Prod.mk.injEq]
    constructor
    · rintro ⟨rfl, rfl, rfl⟩; exact ⟨.nil, rfl⟩
    · rintro ⟨hr, e⟩
      cases hr
      exact ⟨rfl, e, rfl⟩
  | cons i ts ih =>
    obtain ⟨b, t⟩ := i
    have hb := (hts (b, t) (by simp)).1
    have ht := (hts (b, t) (by simp)).2
    have ih' := ih (fun i hi => hts i (by simp [hi])) _ (endKind_noSp _ (NoSp_tok t ht) .other (by simp))
    simp only [itemEls]
    rw [elemsRe_blankRun k hk b hb _ (tokEls_start t ht _), mem_seq]
    constructor
    · rintro ⟨h1, m1, h2, m2, rfl⟩
      rw [mem_blanksRe] at m1
      rw [elemsRe_append, mem_seq] at m2
      obtain ⟨h3, m3, h4, m4, rfl⟩ := m2
      rw [mem_tok t ht] at m3
      rw [ih'] at m4
      refine ⟨?_, ?_⟩
      · have := Renders.cons b h1.1 t ts h3.1 h4.1 h3.2.2 h4.2.2 (Or.inr ⟨hb.1, m1.1⟩) m3.1 m4.1
        simpa [m1.2.2] using this
      · simp only [List.append_assoc]; rw [m4.2, m3.2, m1.2.1]
    · obtain ⟨x, y, z⟩ := h
      dsimp only
      rintro ⟨hr, e⟩
      generalize hz : ((b, t) :: ts) = q at hr
      cases hr with
      | nil => cases hz
      | cons b0 b' t0 ts0 x0 y0 v w hbb htt hrr =>
        injection hz with h1 h2
        injection h1 with h1 h3
        subst h1 h2 h3
        have hB : Blanks b' := by
          rcases hbb with ⟨h, _⟩ | ⟨_, h⟩
          · exact absurd h hb.1
          · exact h
        refine ⟨(b', x0 ++ (y0 ++ y), []), ?_, (x0 ++ y0, y, v ++ w), ?_, by simp⟩
        · rw [mem_blanksRe]; exact ⟨hB, by simpa using e, rfl⟩
        · rw [elemsRe_append, mem_seq]
          refine ⟨(x0, y0 ++ y, v), ?_, (y0, y, w), ?_, by simp⟩
          · rw [mem_tok t ht]; exact ⟨htt, rfl⟩
          · rw [ih']; exact ⟨hrr, rfl⟩

/-- The expression of a well-formed line matches exactly its renderings. -/
theorem mem_line (items : List (Str × Tok)) (ho : ItemsOK items) (s : Str) (h : Re.Hit) :
    h ∈ run (elemsRe false false .other (itemEls items)) s ↔ Renders items h.1 h.2.2 ∧ h.1 ++ h.2.1 = s := by
  cases items with
  | nil => exact absurd ho id
  | cons i ts =>
    obtain ⟨b, t⟩ := i
    obtain ⟨rfl, ht, hts⟩ := ho
    have ih' := mem_items ts hts _ (endKind_noSp _ (NoSp_tok t ht) .other (by simp))
    simp only [itemEls, chs, List.map_nil, List.nil_append]
    rw [elemsRe_append, mem_seq]
    constructor
    · rintro ⟨h3, m3, h4, m4, rfl⟩
      rw [mem_tok t ht] at m3
      rw [ih'] at m4
      refine ⟨?_, ?_⟩
      · have := Renders.cons [] [] t ts h3.1 h4.1 h3.2.2 h4.2.2 (Or.inl ⟨rfl, rfl⟩) m3.1 m4.1
        simpa using this
      · simp only [List.append_assoc]; rw [m4.2, m3.2]
    · obtain ⟨x, y, z⟩ := h
      dsimp only
      rintro ⟨hr, e⟩
      generalize hz : (([], t) :: ts) = q at hr
      cases hr with
      | nil => cases hz
      | cons b0 b' t0 ts0 x0 y0 v w hbb htt hrr =>
        injection hz with h1 h2
        injection h1 with h1 h3
        subst h1 h2 h3
        have hB : b' = [] := by
          rcases hbb with ⟨_, h⟩ | ⟨h, _⟩
          · exact h
          · exact absurd rfl h
        subst hB
        refine ⟨(x0, y0 ++ y, v), ?_, (y0, y, w), ?_, by simp⟩
        · rw [mem_tok t ht]; exact ⟨htt, by simpa using e⟩
        · rw [ih']; exact ⟨hrr, rfl⟩

theorem lit_word (A B : Prop) (w x : Str) (h : LitMatch A B w x) (hw : ∀ c ∈ w, isSpace c = false) :
    ∀ c ∈ x, isSpace c = false := by
  induction h with
  | nil => exact hw
  | char c t x _ _ _ ih =>
    intro d hd
    rcases List.mem_cons.1 hd with rfl | hd
    · exact hw d (by simp)
    · exact ih (fun c hc => hw c (by simp [hc])) d hd
  | blankRun b b' t x _ hb =>
    obtain ⟨c, b0, e⟩ := List.exists_cons_of_ne_nil hb.1
    exact absurd (hb.2 c (by simp [e])) (nspace_not_blank c (hw c (by simp [e])))
  | digitRun b b' t x _ hb hb' _ _ ih =>
    intro d hd
    rcases List.mem_append.1 hd with hd | hd
    · exact isDigit_not_space d (hb'.2 d hd)
    · exact ih (fun c hc => hw c (by simp [hc])) d hd

theorem lit_ne_nil (A B : Prop) (w x : Str) (h : LitMatch A B w x) (hw : w ≠ []) : x ≠ [] := by
  cases h with
  | nil => exact hw
  | char c t x => simp
  | blankRun b b' t x _ hb hb' => simp [hb'.1]
  | digitRun b b' t x _ hb hb' => simp [hb'.1]

theorem tokText_word (t : Tok) (ht : TokOK t) (x : Str) (v : List (Str × Str)) (h : TokText t x v) : Word x := by
  cases t with
  | word w => exact ⟨lit_ne_nil _ _ _ _ h.1 ht.1.1, lit_word _ _ _ _ h.1 ht.1.2⟩
  | var p n q =>
    obtain ⟨_, _, _, _, h5⟩ := ht
    obtain ⟨v, hv, rfl, rfl⟩ := h
    refine ⟨by simp [hv.1], ?_⟩
    intro c hc
    simp only [List.mem_append] at hc
    rcases hc with (hc | hc) | hc
    · exact (h5 c (by simp [hc])).1
    · exact hv.2 c hc
    · exact (h5 c (by simp [hc])).1

theorem tokText_unique (t : Tok) (x : Str) (v v' : List (Str × Str)) (h : TokText t x v) (h' : TokText t x v') :
    v = v' := by
  cases t with
  | word w => rw [h.2, h'.2]
  | var p n q =>
    obtain ⟨u, _, e, rfl⟩ := h
    obtain ⟨u', _, e', rfl⟩ := h'
    rw [e] at e'
    simp only [List.append_assoc, List.append_cancel_left_eq, List.append_cancel_right_eq] at e'
    rw [e']

/-- the text is at its end or goes on with white space -/
def SpaceNext (r : Str) : Prop := ∀ c cs, r = c :: cs → isSpace c = true

theorem renders_space (ts : List (Str × Tok)) (hts : ∀ i ∈ ts, Blanks i.1 ∧ TokOK i.2) (x r : Str)
    (v : List (Str × Str)) (h : Renders ts x v) (hr : SpaceNext r) : SpaceNext (x ++ r) := by
  cases h with
  | nil => exact hr
  | cons b b' t ts x y v w hb =>
    have hB : Blanks b' := by
      rcases hb with ⟨h, _⟩ | ⟨_, h⟩
      · exact absurd h (hts (b, t) (by simp)).1.1
      · exact h
    obtain ⟨c, b0, e⟩ := List.exists_cons_of_ne_nil hB.1
    intro d ds he
    rw [e] at he
    simp only [List.cons_append] at he
    injection he with he1 he2
    rw [← he1]
    exact blank_space c (hB.2 c (by simp [e]))

theorem word_unique (x x' r r' : Str) (hx : ∀ c ∈ x, isSpace c = false) (hx' : ∀ c ∈ x', isSpace c = false)
    (hr : SpaceNext r) (hr' : SpaceNext r') (e : x ++ r = x' ++ r') : x = x' ∧ r = r' :=
  run_unique (fun c => isSpace c = false) x x' r r' hx hx'
    (fun c cs e (h : isSpace c = false) => by rw [hr c cs e] at h; cases h) (fun c cs e (h : isSpace c = false) => by rw [hr' c cs e] at h; cases h) e

theorem renders_unique_tail (ts : List (Str × Tok)) (hts : ∀ i ∈ ts, Blanks i.1 ∧ TokOK i.2) (x x' r r' : Str)
    (v v' : List (Str × Str)) (h : Renders ts x v) (h' : Renders ts x' v') (hr : SpaceNext r) (hr' : SpaceNext r')
    (e : x ++ r = x' ++ r') : x = x' ∧ r = r' ∧ v = v' := by
  induction ts generalizing x x' v v' with
  | nil =>
    cases h; cases h'
    exact ⟨rfl, e, rfl⟩
  | cons i ts ih =>
    obtain ⟨b, t⟩ := i
    have hb := (hts (b, t) (by simp)).1
    have ht := (hts (b, t) (by simp)).2
    cases h with
    | cons _ b1 _ _ x1 y1 v1 w1 hb1 ht1 hr1 =>
      cases h' with
      | cons _ b2 _ _ x2 y2 v2 w2 hb2 ht2 hr2 =>
        have hB1 : Blanks b1 := by
          rcases hb1 with ⟨h, _⟩ | ⟨_, h⟩
          · exact absurd h hb.1
          · exact h
        have hB2 : Blanks b2 := by
          rcases hb2 with ⟨h, _⟩ | ⟨_, h⟩
          · exact absurd h hb.1
          · exact h
        have W1 := tokText_word t ht _ _ ht1
        have W2 := tokText_word t ht _ _ ht2
        have nn : ∀ (x rest : Str), Word x → NotNext Blank (x ++ rest) := by
          intro x rest hw c cs e2 hc
          obtain ⟨d, ds, ed⟩ := List.exists_cons_of_ne_nil hw.1
          rw [ed] at e2
          injection e2 with e3 _
          have := hw.2 d (by simp [ed])
          rw [e3] at this
          rw [blank_space c hc] at this; cases this
        have e1 : b1 ++ (x1 ++ (y1 ++ r)) = b2 ++ (x2 ++ (y2 ++ r')) := by simpa using e
        obtain ⟨eb, e2⟩ := run_unique Blank b1 b2 _ _ hB1.2 hB2.2 (nn _ _ W1) (nn _ _ W2) e1
        have hts' : ∀ i ∈ ts, Blanks i.1 ∧ TokOK i.2 := fun i hi => hts i (by simp [hi])
        obtain ⟨ex, e3⟩ := word_unique x1 x2 _ _ W1.2 W2.2 (renders_space ts hts' _ _ _ hr1 hr)
          (renders_space ts hts' _ _ _ hr2 hr') e2
        obtain ⟨ey, er, ew⟩ := ih hts' _ _ _ _ hr1 hr2 e3
        subst ex
        have ev := tokText_unique t _ _ _ ht1 ht2
        exact ⟨by rw [eb, ey], er, by rw [ev, ew]⟩

theorem renders_unique (items : List (Str × Tok)) (ho : ItemsOK items) (x x' r r' : Str)
    (v v' : List (Str × Str)) (h : Renders items x v) (h' : Renders items x' v') (hr : SpaceNext r) (hr' : SpaceNext r')
    (e : x ++ r = x' ++ r') : x = x' ∧ r = r' ∧ v = v' := by
  cases items with
  | nil => exact absurd ho id
  | cons i ts =>
    obtain ⟨b, t⟩ := i
    obtain ⟨rfl, ht, hts⟩ := ho
    cases h with
    | cons _ b1 _ _ x1 y1 v1 w1 hb1 ht1 hr1 =>
      cases h' with
      | cons _ b2 _ _ x2 y2 v2 w2 hb2 ht2 hr2 =>
        have hB1 : b1 = [] := by
          rcases hb1 with ⟨_, h⟩ | ⟨h, _⟩
          · exact h
          · exact absurd rfl h
        have hB2 : b2 = [] := by
          rcases hb2 with ⟨_, h⟩ | ⟨h, _⟩
          · exact h
          · exact absurd rfl h
        subst hB1 hB2
        have W1 := tokText_word t ht _ _ ht1
        have W2 := tokText_word t ht _ _ ht2
        have e2 : x1 ++ (y1 ++ r) = x2 ++ (y2 ++ r') := by simpa using e
        obtain ⟨ex, e3⟩ := word_unique x1 x2 _ _ W1.2 W2.2 (renders_space ts hts _ _ _ hr1 hr)
          (renders_space ts hts _ _ _ hr2 hr') e2
        obtain ⟨ey, er, ew⟩ := renders_unique_tail ts hts _ _ _ _ _ _ hr1 hr2 hr hr' e3
        subst ex
        have ev := tokText_unique t _ _ _ ht1 ht2
        exact ⟨by rw [ey], er, by rw [ev, ew]⟩

/-! ## The line from its text -/

theorem openVar_none (c : Char) (cs : Str) (h : c ≠ '{') : openVar (c :: cs) = none := by
  unfold openVar
  split
  · rename_i e; injection e with e1 _; exact absurd e1 h
  · rfl

theorem elemsAux_chars (w rest : Str) (h : '{' ∉ w) (n : Nat) (hn : w.length + rest.length ≤ n) :
    ∃ m, rest.length ≤ m ∧ elemsAux n (w ++ rest) = w.map .ch ++ elemsAux m rest := by
  induction w generalizing n with
  | nil => exact ⟨n, by simpa using hn, by simp⟩
  | cons c w ih =>
    simp only [List.mem_cons, not_or] at h
    cases n with
    | zero => simp at hn
    | succ n =>
      obtain ⟨m, h1, h2⟩ := ih h.2 n (by simp at hn; omega)
      refine ⟨m, h1, ?_⟩
      simp only [List.cons_append, elemsAux, openVar_none c _ (fun e => h.1 e.symm), List.map_cons]
      rw [h2]

theorem untilClose_name (n rest : Str) (h : '}' ∉ n) : untilClose (n ++ c!" }}" ++ rest) = some (n ++ [' '], rest) := by
  induction n with
  | nil => simp [untilClose]
  | cons c n ih =>
    simp only [List.mem_cons, not_or] at h
    simp only [List.cons_append]
    unfold untilClose
    split
    · rename_i e
      injection e with e1 _
      exact absurd e1.symm h.1
    · rename_i e
      injection e with e1 e2
      subst e1 e2
      simp only [List.append_assoc, List.cons_append, List.nil_append] at ih ⊢
      rw [ih h.2]
      rfl
    · rename_i e
      cases e

theorem word_not_brace (n : Str) (h : ∀ c ∈ n, isWord c = true) : '}' ∉ n := by
  intro hm
  have := h _ hm
  revert this
  decide

theorem elemsAux_var (n rest : Str) (h : ∀ c ∈ n, isWord c = true) (k : Nat)
    (hk : (c!"{{ " ++ n ++ c!" }}").length + rest.length ≤ k) :
    ∃ m, rest.length ≤ m ∧ elemsAux k (c!"{{ " ++ n ++ c!" }}" ++ rest) = .var (' ' :: n ++ [' ']) :: elemsAux m rest := by
  cases k with
  | zero => simp at hk
  | succ k =>
    refine ⟨k, by simp at hk; omega, ?_⟩
    have e : c!"{{ " ++ n ++ c!" }}" ++ rest = '{' :: ('{' :: (' ' :: (n ++ c!" }}" ++ rest))) := by simp
    rw [e]
    simp only [elemsAux]
    have : openVar ('{' :: ('{' :: (' ' :: (n ++ c!" }}" ++ rest)))) = some (' ' :: (n ++ [' ']), rest) := by
      simp only [openVar]
      rw [untilClose_name n rest (word_not_brace n h)]
      rfl
    rw [this]
    simp

theorem strip_name (n : Str) (h : ∀ c ∈ n, isWord c = true) (hne : n ≠ []) : strip (' ' :: n ++ [' ']) = n := by
  have hs : ∀ c ∈ n, isSpace c = false := by
    intro c hc
    have := h c hc
    cases hsp : isSpace c with
    | false => rfl
    | true =>
      simp only [isWord, isAlnum, isAlpha, isDigit, Bool.or_eq_true, Bool.and_eq_true, decide_eq_true_eq, beq_iff_eq] at this
      simp only [isSpace, Bool.or_eq_true, Bool.and_eq_true, decide_eq_true_eq, beq_iff_eq] at hsp
      rcases this with ((h1 | h1) | h1) | h1
      · omega
      · omega
      · omega
      · subst h1
        have : '_'.toNat = 95 := rfl
        omega
  obtain ⟨c, n', e⟩ := List.exists_cons_of_ne_nil hne
  have h1 : lstrip (' ' :: n ++ [' ']) = n ++ [' '] := by
    simp only [lstrip, List.cons_append]
    rw [List.dropWhile_cons_of_pos (by decide), e, List.cons_append, List.dropWhile_cons_of_neg]
    simp [hs c (by simp [e])]
  unfold strip
  rw [h1]
  simp only [rstrip, rstripP, List.reverse_append, List.reverse_cons, List.reverse_nil, List.nil_append, List.cons_append]
  rw [List.dropWhile_cons_of_pos (by decide)]
  cases hr : n.reverse with
  | nil => simp at hr; exact absurd hr hne
  | cons d r =>
    rw [List.dropWhile_cons_of_neg]
    · rw [← hr, List.reverse_reverse]
    · have : d ∈ n := by rw [← List.mem_reverse, hr]; simp
      simp [hs d this]

/-- pieces of the text of the items, with the contents of the variables as they are written -/
def rawEls : List (Str × Tok) → List (Elem Str)
  | [] => []
  | (b, .word w) :: ts => b.map .ch ++ (w.map .ch ++ rawEls ts)
  | (b, .var p n q) :: ts => b.map .ch ++ (p.map .ch ++ (.var (' ' :: n ++ [' ']) :: (q.map .ch ++ rawEls ts)))

theorem elemsAux_items (ts : List (Str × Tok)) (hts : ∀ i ∈ ts, (∀ c ∈ i.1, Blank c) ∧ TokOK i.2) (n : Nat)
    (hn : (source ts).length ≤ n) : elemsAux n (source ts) = rawEls ts := by
  induction ts generalizing n with
  | nil => cases n <;> simp [source, rawEls, elemsAux]
  | cons i ts ih =>
    obtain ⟨b, t⟩ := i
    have hb : '{' ∉ b := by
      intro hm
      have := (hts (b, t) (by simp)).1 _ hm
      revert this
      simp [Blank]
    have ht := (hts (b, t) (by simp)).2
    have hts' : ∀ i ∈ ts, (∀ c ∈ i.1, Blank c) ∧ TokOK i.2 := fun i hi => hts i (by simp [hi])
    have es : source ((b, t) :: ts) = b ++ (t.source ++ source ts) := by simp [source]
    rw [es] at hn ⊢
    obtain ⟨m1, l1, e1⟩ := elemsAux_chars b (t.source ++ source ts) hb n (by simp at hn ⊢; omega)
    rw [e1]
    cases t with
    | word w =>
      obtain ⟨m2, l2, e2⟩ := elemsAux_chars w (source ts) ht.2 m1 (by simpa [Tok.source] using l1)
      simp only [Tok.source, rawEls]
      rw [e2, ih hts' m2 l2]
    | var p nm q =>
      obtain ⟨_, h2, _, _, h5⟩ := ht
      have hp : '{' ∉ p := fun hm => (h5 _ (by simp [hm])).2.2 rfl
      have hq : '{' ∉ q := fun hm => (h5 _ (by simp [hm])).2.2 rfl
      have e0 : (Tok.var p nm q).source ++ source ts = p ++ (c!"{{ " ++ nm ++ c!" }}" ++ (q ++ source ts)) := by
        simp [Tok.source]
      rw [e0] at l1 ⊢
      obtain ⟨m2, l2, e2⟩ := elemsAux_chars p (c!"{{ " ++ nm ++ c!" }}" ++ (q ++ source ts)) hp m1
        (by rw [List.length_append] at l1; exact l1)
      obtain ⟨m3, l3, e3⟩ := elemsAux_var nm (q ++ source ts) h2 m2 (by rw [List.length_append] at l2; exact l2)
      obtain ⟨m4, l4, e4⟩ := elemsAux_chars q (source ts) hq m3 (by simpa using l3)
      rw [e2, e3, e4, ih hts' m4 l4]
      simp only [rawEls]

theorem contains_iff (s p : Str) : Py.contains s p = true ↔ p <:+: s := by
  induction s with
  | nil => simp [Py.contains]
  | cons c s ih => simp only [Py.contains, Bool.or_eq_true, List.isPrefixOf_iff_prefix, ih, List.infix_cons_iff]

theorem last_of_word (w : Str) (h : Word w) : ∃ a c, w = a ++ [c] ∧ isSpace c = false := by
  refine ⟨w.dropLast, w.getLast h.1, (List.dropLast_concat_getLast h.1).symm, h.2 _ (List.getLast_mem h.1)⟩

theorem tok_last (t : Tok) (ht : TokOK t) : ∃ a c, t.source = a ++ [c] ∧ isSpace c = false := by
  cases t with
  | word w => exact last_of_word w ht.1
  | var p n q =>
    obtain ⟨_, _, _, _, h5⟩ := ht
    by_cases hq : q = []
    · subst hq
      exact ⟨p ++ c!"{{ " ++ n ++ c!" }", '}', by simp [Tok.source], by decide⟩
    · obtain ⟨a, c, e, hc⟩ := last_of_word q ⟨hq, fun c hc => (h5 c (by simp [hc])).1⟩
      exact ⟨p ++ c!"{{ " ++ n ++ c!" }}" ++ a, c, by simp [Tok.source, e], hc⟩

theorem tok_first (t : Tok) (ht : TokOK t) : ∃ c a, t.source = c :: a ∧ isSpace c = false := by
  cases t with
  | word w =>
    obtain ⟨c, a, e⟩ := List.exists_cons_of_ne_nil ht.1.1
    exact ⟨c, a, e, ht.1.2 c (by simp [e])⟩
  | var p n q =>
    obtain ⟨_, _, _, _, h5⟩ := ht
    cases p with
    | nil => exact ⟨'{', _, rfl, by decide⟩
    | cons c p => exact ⟨c, _, rfl, (h5 c (by simp)).1⟩

theorem source_last (ts : List (Str × Tok)) (hne : ts ≠ []) (hts : ∀ i ∈ ts, TokOK i.2) :
    ∃ a c, source ts = a ++ [c] ∧ isSpace c = false := by
  induction ts with
  | nil => exact absurd rfl hne
  | cons i ts ih =>
    obtain ⟨b, t⟩ := i
    have es : source ((b, t) :: ts) = b ++ (t.source ++ source ts) := by simp [source]
    rw [es]
    by_cases h : ts = []
    · subst h
      obtain ⟨a, c, e, hc⟩ := tok_last t (hts (b, t) (by simp))
      exact ⟨b ++ a, c, by simp [source, e], hc⟩
    · obtain ⟨a, c, e, hc⟩ := ih h (fun i hi => hts i (by simp [hi]))
      exact ⟨b ++ (t.source ++ a), c, by simp [e], hc⟩

theorem dropWhile_all (p : Char → Bool) (a b : Str) (h : ∀ c ∈ a, p c = true) : (a ++ b).dropWhile p = b.dropWhile p := by
  induction a with
  | nil => rfl
  | cons c a ih =>
    rw [List.cons_append, List.dropWhile_cons_of_pos (h c (by simp))]
    exact ih (fun c hc => h c (by simp [hc]))

theorem rstrip_append (a : Str) (c : Char) (trail : Str) (hc : isSpace c = false) (ht : ∀ d ∈ trail, isSpace d = true) :
    rstrip (a ++ [c] ++ trail) = a ++ [c] := by
  simp only [rstrip, rstripP, List.reverse_append]
  rw [dropWhile_all isSpace _ _ (fun d hd => ht d (by simpa using hd))]
  simp only [List.reverse_cons, List.reverse_nil, List.nil_append, List.cons_append]
  rw [List.dropWhile_cons_of_neg (by simp [hc])]
  simp

/-- attach the plain variables -/
def defEl : Elem Str → Elem VarInfo
  | .ch c => .ch c
  | .var content => .var (varInfo ⟨strip content, none, []⟩)

theorem rawEls_itemEls (ts : List (Str × Tok)) (hts : ∀ i ∈ ts, TokOK i.2) : (rawEls ts).map defEl = itemEls ts := by
  induction ts with
  | nil => rfl
  | cons i ts ih =>
    obtain ⟨b, t⟩ := i
    have ht := hts (b, t) (by simp)
    have ih' := ih (fun i hi => hts i (by simp [hi]))
    cases t with
    | word w => simp [rawEls, itemEls, tokEls, chs, ih', defEl, Function.comp_def]
    | var p n q =>
      have h1 := varInfo_plain p n q ht
      have h2 := strip_name n ht.2.1 ht.1
      have hv : defEl (.var (' ' :: n ++ [' '])) = .var (plainVar n) := by simp only [defEl, h2, h1]
      simp only [rawEls, List.map_append, List.map_cons, hv, ih']
      simp [itemEls, tokEls, chs, defEl, Function.comp_def]

/-- no variable of the line cuts it -/
theorem cutElems_items (sp : Bool) (es : List (Elem VarInfo)) (h : ∀ e ∈ es, Elem.isCut e = false) : cutElems sp es = es := by
  unfold cutElems
  have : es.any Elem.isCut = false := by
    rw [List.any_eq_false]; intro e he; simp [h e he]
  simp [this]

theorem itemEls_noCut (ts : List (Str × Tok)) : ∀ e ∈ itemEls ts, Elem.isCut e = false := by
  induction ts with
  | nil => simp [itemEls]
  | cons i ts ih =>
    obtain ⟨b, t⟩ := i
    intro e he
    have hch : ∀ w : Str, e ∈ chs w → Elem.isCut e = false := by
      intro w hw
      simp only [chs, List.mem_map] at hw
      obtain ⟨c, _, rfl⟩ := hw
      rfl
    simp only [itemEls, List.mem_append] at he
    rcases he with he | he | he
    · exact hch b he
    · cases t with
      | word w => exact hch w he
      | var p n q =>
        simp only [tokEls, List.mem_append, List.mem_cons] at he
        rcases he with he | rfl | he
        · exact hch p he
        · rfl
        · exact hch q he
    · exact ih e he

theorem compileText_items (indent trail : Str) (items : List (Str × Tok)) (ho : ItemsOK items)
    (hi : ∀ c ∈ indent, isSpace c = true) (ht : ∀ c ∈ trail, isSpace c = true)
    (hx : ¬ c!"_exact_" <:+: indent ++ source items) :
    (compileText (indent ++ source items ++ trail)).re = lineRe false false indent (itemEls items) := by
  have hall : ∀ i ∈ items, (∀ c ∈ i.1, Blank c) ∧ TokOK i.2 := by
    cases items with
    | nil => exact absurd ho id
    | cons i ts =>
      obtain ⟨b, t⟩ := i
      obtain ⟨rfl, ht, hts⟩ := ho
      intro j hj
      rcases List.mem_cons.1 hj with rfl | hj
      · exact ⟨by simp, ht⟩
      · exact ⟨(hts j hj).1.2, (hts j hj).2⟩
  have hne : items ≠ [] := by rintro rfl; exact ho
  obtain ⟨a, c, e, hc⟩ := source_last items hne (fun i hi => (hall i hi).2)
  have e1 : rstrip (indent ++ source items ++ trail) = indent ++ source items := by
    rw [e]
    have := rstrip_append (indent ++ a) c trail hc ht
    simpa using this
  have e2 : lstrip (indent ++ source items) = source items := by
    cases items with
    | nil => exact absurd rfl hne
    | cons i ts =>
      obtain ⟨b, t⟩ := i
      obtain ⟨rfl, ht, hts⟩ := ho
      obtain ⟨d, r, ed, hd⟩ := tok_first t ht
      simp only [lstrip]
      rw [dropWhile_all isSpace _ _ hi]
      have : source (([], t) :: ts) = d :: (r ++ source ts) := by simp [source, ed]
      rw [this, List.dropWhile_cons_of_neg (by simp [hd])]
  have e3 : Py.contains (indent ++ source items) c!"_exact_" = false := by
    cases h : Py.contains (indent ++ source items) c!"_exact_" with
    | false => rfl
    | true => exact absurd ((contains_iff _ _).1 h) hx
  have e4 : Py.contains (indent ++ source items) c!"_exact_space_" = false := by
    cases h : Py.contains (indent ++ source items) c!"_exact_space_" with
    | false => rfl
    | true =>
      have h2 := (contains_iff _ _).1 h
      exact absurd (List.IsInfix.trans ⟨[], c!"space_", rfl⟩ h2) hx
  have e5 : elems (source items) = rawEls items := elemsAux_items items hall _ (Nat.le_refl _)
  unfold compileText
  simp only [e1, e2, e3, e4, e5]
  simp only [compileLine, List.map_map]
  have e6 : ∀ (f : Elem Str → Elem VarInfo), (∀ x, f x = defEl x) → (rawEls items).map f = itemEls items := by
    intro f hf
    rw [← rawEls_itemEls items (fun i hi => (hall i hi).2)]
    exact List.map_congr_left (fun x _ => hf x)
  rw [e6 _ (by intro x; cases x <;> rfl)]
  have : List.take ((indent ++ source items).length - (source items).length) (indent ++ source items) = indent := by
    simp
  rw [this]

/-! ## Matches of a line in a text -/

theorem mem_tailRe (s : Str) (h : Re.Hit) : h ∈ run tailRe s ↔
    (∀ c ∈ h.1, Blank c) ∧ h.1 ++ h.2.1 = s ∧ h.2.2 = [] ∧ (c!"\n" <+: h.2.1 ∨ c!"\r\n" <+: h.2.1) := by
  unfold tailRe
  rw [mem_seq]
  have hb : ∀ c, CC.test (.oneOf ['\t', ' ']) c = true ↔ Blank c := by intro c; simp [CC.test, Blank, or_comm]
  constructor
  · rintro ⟨h1, m1, h2, m2, rfl⟩
    rw [mem_star_cls] at m1
    rw [mem_look] at m2
    obtain ⟨⟨h3, m3⟩, rfl⟩ := m2
    simp only [hb] at m1
    refine ⟨by simpa using m1.1, by simpa using m1.2.1, by simpa using m1.2.2, ?_⟩
    rw [mem_alt, mem_lits, mem_lits] at m3
    rcases m3 with m3 | m3
    · exact Or.inl ⟨_, m3.2.1⟩
    · exact Or.inr ⟨_, m3.2.1⟩
  · obtain ⟨x, y, z⟩ := h
    dsimp only
    rintro ⟨e1, rfl, rfl, e4⟩
    refine ⟨(x, y, []), ?_, ([], y, []), ?_, by simp⟩
    · rw [mem_star_cls]; exact ⟨fun c hc => (hb c).2 (e1 c hc), rfl, rfl⟩
    · rw [mem_look]
      refine ⟨?_, rfl⟩
      rcases e4 with ⟨r, e4⟩ | ⟨r, e4⟩
      · exact ⟨(c!"\n", r, []), by rw [mem_alt, mem_lits, mem_lits]; exact Or.inl ⟨rfl, e4, rfl⟩⟩
      · exact ⟨(c!"\r\n", r, []), by rw [mem_alt, mem_lits, mem_lits]; exact Or.inr ⟨rfl, e4, rfl⟩⟩

theorem mem_lineRe (ex sp : Bool) (indent : Str) (es : List (Elem VarInfo)) (s : Str) (h : Re.Hit) :
    h ∈ run (lineRe ex sp indent es) s ↔ ∃ h1 b, h1 ∈ run (elemsRe ex sp .other (cutElems sp es)) (h1.1 ++ (b ++ h.2.1)) ∧
      h1.2.1 = b ++ h.2.1 ∧ (∀ c ∈ b, Blank c) ∧ (c!"\n" <+: h.2.1 ∨ c!"\r\n" <+: h.2.1) ∧
      h.1 = '\n' :: (indent ++ (h1.1 ++ b)) ∧ h.1 ++ h.2.1 = s ∧ h.2.2 = h1.2.2 := by
  unfold lineRe
  constructor
  · intro hm
    rw [mem_seq] at hm
    obtain ⟨a1, m1, a2, m2, rfl⟩ := hm
    rw [mem_cls] at m1
    obtain ⟨x, xs, rfl, hx, rfl⟩ := m1
    simp only [CC.test, beq_iff_eq] at hx
    subst hx
    rw [mem_seq] at m2
    obtain ⟨a3, m3, a4, m4, rfl⟩ := m2
    rw [mem_lits] at m3
    rw [mem_seq] at m4
    obtain ⟨a5, m5, a6, m6, rfl⟩ := m4
    rw [mem_tailRe] at m6
    have sp5 := run_split _ _ _ m5
    refine ⟨a5, a6.1, ?_, m6.2.1.symm, m6.1, m6.2.2.2, ?_, ?_, ?_⟩
    · dsimp only; rw [m6.2.1, sp5]; exact m5
    · simp [m3.1]
    · dsimp only at m3 ⊢
      simp only [List.cons_append, List.nil_append, List.append_assoc, m6.2.1, sp5]
      rw [m3.1, m3.2.1]
    · simp [m3.2.2, m6.2.2.1]
  · obtain ⟨x, y, z⟩ := h
    rintro ⟨h1, b, m1, e1, hb, hn, e2, e3, e4⟩
    dsimp only at m1 e1 hn e2 e3 e4
    subst e2 e3 e4
    rw [mem_seq]
    refine ⟨(['\n'], indent ++ (h1.1 ++ (b ++ y)), []), ?_, (indent ++ (h1.1 ++ b), y, h1.2.2), ?_, by simp⟩
    · rw [mem_cls]; exact ⟨'\n', _, by simp, by simp [CC.test], rfl⟩
    · rw [mem_seq]
      refine ⟨(indent, h1.1 ++ (b ++ y), []), by rw [mem_lits]; exact ⟨rfl, rfl, rfl⟩, (h1.1 ++ b, y, h1.2.2), ?_, by simp⟩
      rw [mem_seq]
      refine ⟨h1, m1, (b, y, []), ?_, by simp⟩
      rw [mem_tailRe]
      exact ⟨hb, e1.symm, rfl, hn⟩

/-- A single line expression finds a match wherever it matches. -/
theorem finditer_nl (r : Re) (s : Str) (hr : ∀ s h, h ∈ run r s → ∃ x, h.1 = '\n' :: x ∧ '\n' ∉ x) (i : Nat)
    (h : Re.Hit) (t : List Re.Hit) (he : run r (s.drop i) = h :: t) :
    ∃ m ∈ finditer r s, m.start = i ∧ m.text = h.1 ∧ m.caps = h.2.2 := by
  have hi : i ≤ s.length := by
    by_cases hi : i ≤ s.length
    · exact hi
    · obtain ⟨x, hx, _⟩ := hr _ h (by rw [he]; simp)
      have := run_split r _ h (by rw [he]; simp)
      rw [List.drop_eq_nil_of_le (by omega), hx] at this
      simp at this
  obtain ⟨m, m1, m2, m3⟩ := scan_complete r s 0 0 i hi (Nat.zero_le _) h t he (by
    intro m hm hlt
    by_cases hc : m.stop ≤ 0 + i
    · exact hc
    · exfalso
      obtain ⟨x, hx, hxn⟩ := hr _ h (by rw [he]; simp)
      have hs : s.drop i = '\n' :: (x ++ h.2.1) := by
        have := run_split r _ h (by rw [he]; simp)
        rw [← this, hx]; rfl
      have hm' : m ∈ finditer r s := hm
      obtain ⟨_, h', t', hr', et, _⟩ := finditer_sound r s m hm'
      obtain ⟨x', hx', hxn'⟩ := hr _ h' (by rw [hr']; simp)
      obtain ⟨rest, hpre⟩ := finditer_text r s m hm'
      rw [et, hx'] at hpre
      -- position i is inside of the match, not at its first character
      have hlen : m.stop = m.start + (x'.length + 1) := by simp [Match.stop, et, hx']
      have hd : s.drop i = ('\n' :: x' ++ rest).drop (i - m.start) := by
        rw [hpre, List.drop_drop]; congr 1; omega
      have hj : i - m.start = (i - m.start - 1) + 1 := by omega
      rw [hj, List.cons_append, List.drop_succ_cons, List.drop_append_of_le_length (by omega)] at hd
      have hlt2 : i - m.start - 1 < x'.length := by omega
      rw [hs, List.drop_eq_getElem_cons hlt2] at hd
      injection hd with hd1 _
      exact hxn' (by rw [hd1]; exact List.getElem_mem hlt2))
  exact ⟨m, m1, by omega, m3⟩

end TTP
