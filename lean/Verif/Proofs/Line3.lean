import Verif.Proofs.Line2
/-! # Lines with arbitrary variables -/

namespace TTP
open Py Py.Re Spec

/-- no newline in the literal text, no expression of a variable can match a newline -/
def ElemNoNL : Elem VarInfo → Prop
  | .ch c => c ≠ '\n'
  | .var v => noNL (varRe v) = true

/-- the same for a line -/
def ElemsNoNL (es : List (Elem VarInfo)) : Prop := ∀ e ∈ es, ElemNoNL e

theorem elemsRe_noNL (ex sp : Bool) (k : Kind) (es : List (Elem VarInfo)) (h : ElemsNoNL es) :
    noNL (elemsRe ex sp k es) = true := by
  induction es generalizing k with
  | nil => rfl
  | cons e es ih =>
    have ih' := fun k => ih k (fun e he => h e (by simp [he]))
    cases e with
    | var v =>
      have := h (.var v) (by simp)
      simp only [elemsRe, noNL, ih', Bool.and_true]
      exact this
    | ch c =>
      have hc : c ≠ '\n' := h (.ch c) (by simp)
      simp only [elemsRe]
      have d : noNL (Re.plus true (.cls .digit)) = true := by decide
      have b : noNL blanksRe = true := by decide
      split
      · split
        · exact ih' _
        · simp only [noNL, ih', b, Bool.and_true]
      · split
        · split
          · exact ih' _
          · simp only [noNL, ih', Bool.and_true, d]
        · simp only [noNL, ih', Bool.and_true, CC.test, Bool.not_eq_true', beq_eq_false_iff_ne, ne_eq]
          exact hc

theorem cutElems_sub (sp : Bool) (es : List (Elem VarInfo)) : ∀ e ∈ cutElems sp es, e ∈ es := by
  intro e he
  unfold cutElems at he
  split at he
  · split at he
    · exact (List.takeWhile_sublist _).subset he
    · rw [List.mem_reverse] at he
      have h1 := (List.dropWhile_sublist _).subset he
      rw [List.mem_reverse] at h1
      exact (List.takeWhile_sublist _).subset h1
  · exact he

/-- A match of a line begins with a newline, has no other newline and is followed by the end of the line. -/
theorem lineRe_hit (ex sp : Bool) (indent : Str) (hi : '\n' ∉ indent) (es : List (Elem VarInfo)) (he : ElemsNoNL es)
    (s : Str) (h : Re.Hit) (hm : h ∈ run (lineRe ex sp indent es) s) :
    ∃ x, h.1 = '\n' :: x ∧ '\n' ∉ x ∧ (c!"\n" <+: h.2.1 ∨ c!"\r\n" <+: h.2.1) := by
  rw [mem_lineRe] at hm
  obtain ⟨h1, b, m1, e1, hb, hn, e2, e3, e4⟩ := hm
  refine ⟨_, e2, ?_, hn⟩
  have n1 := noNL_run _ (elemsRe_noNL ex sp .other (cutElems sp es) (fun e h => he e (cutElems_sub sp es e h))) _ _ m1
  simp only [List.mem_append, not_or]
  refine ⟨hi, n1, fun hb2 => ?_⟩
  have := hb _ hb2
  revert this
  simp [Blank]

theorem elemsNoNL_items (ts : List (Str × Tok)) (hts : ∀ i ∈ ts, (∀ c ∈ i.1, Blank c) ∧ TokOK i.2) :
    ElemsNoNL (itemEls ts) := by
  induction ts with
  | nil => intro e he; cases he
  | cons i ts ih =>
    obtain ⟨b, t⟩ := i
    have hb := (hts (b, t) (by simp)).1
    have ht := (hts (b, t) (by simp)).2
    intro e he
    have hch : ∀ w : Str, (∀ c ∈ w, c ≠ '\n') → e ∈ chs w → ElemNoNL e := by
      intro w hw hm
      simp only [chs, List.mem_map] at hm
      obtain ⟨c, hc, rfl⟩ := hm
      exact hw c hc
    have nsp : ∀ c, isSpace c = false → c ≠ '\n' := by
      rintro c h rfl; revert h; decide
    simp only [itemEls, List.mem_append] at he
    rcases he with he | he | he
    · refine hch b ?_ he
      rintro c hc rfl
      have := hb _ hc
      revert this; simp [Blank]
    · cases t with
      | word w => exact hch w (fun c hc => nsp c (ht.1.2 c hc)) he
      | var p n q =>
        obtain ⟨_, _, _, _, h5⟩ := ht
        simp only [tokEls, List.mem_append, List.mem_cons] at he
        rcases he with he | rfl | he
        · exact hch p (fun c hc => nsp c (h5 c (by simp [hc])).1) he
        · show noNL (varRe (plainVar n)) = true
          rfl
        · exact hch q (fun c hc => nsp c (h5 c (by simp [hc])).1) he
    · exact ih (fun i hi => hts i (by simp [hi])) e he

theorem itemsOK_all (items : List (Str × Tok)) (ho : ItemsOK items) : ∀ i ∈ items, (∀ c ∈ i.1, Blank c) ∧ TokOK i.2 := by
  cases items with
  | nil => exact absurd ho id
  | cons i ts =>
    obtain ⟨b, t⟩ := i
    obtain ⟨rfl, ht, hts⟩ := ho
    intro j hj
    rcases List.mem_cons.1 hj with rfl | hj
    · exact ⟨by simp, ht⟩
    · exact ⟨(hts j hj).1.2, (hts j hj).2⟩

/-- end of line: newline or carriage return and newline -/
theorem eol_space (r : Str) (h : c!"\n" <+: r ∨ c!"\r\n" <+: r) : SpaceNext r := by
  intro c cs e
  rcases h with ⟨t, h⟩ | ⟨t, h⟩
  · rw [e] at h; injection h with h1 _; rw [← h1]; decide
  · rw [e] at h; injection h with h1 _; rw [← h1]; decide

theorem blanks_eol_space (b r : Str) (hb : ∀ c ∈ b, Blank c) (h : c!"\n" <+: r ∨ c!"\r\n" <+: r) : SpaceNext (b ++ r) := by
  cases b with
  | nil => exact eol_space r h
  | cons d b =>
    intro c cs e
    injection e with e1 _
    rw [← e1]
    exact blank_space d (hb d (by simp))

/-- Every match of the line at a place where a rendering stands is that rendering. -/
theorem line_hits (indent : Str) (items : List (Str × Tok)) (ho : ItemsOK items) (x b rest : Str) (vals : List (Str × Str))
    (hr : Renders items x vals) (hb : ∀ c ∈ b, Blank c) (hn : c!"\n" <+: rest ∨ c!"\r\n" <+: rest) (h : Re.Hit) :
    h ∈ run (lineRe false false indent (itemEls items)) ('\n' :: (indent ++ (x ++ (b ++ rest)))) →
      h.1 = '\n' :: (indent ++ (x ++ b)) ∧ h.2.1 = rest ∧ h.2.2 = vals := by
  intro hm
  rw [mem_lineRe, cutElems_items _ _ (itemEls_noCut items)] at hm
  obtain ⟨h1, b', m1, e1, hb', hn', e2, e3, e4⟩ := hm
  rw [mem_line items ho] at m1
  rw [e2] at e3
  have e5 : h1.1 ++ (b' ++ h.2.1) = x ++ (b ++ rest) := by
    simpa using e3
  obtain ⟨ex, er, ev⟩ := renders_unique items ho _ _ _ _ _ _ m1.1 hr (blanks_eol_space b' h.2.1 hb' hn')
    (blanks_eol_space b rest hb hn) e5
  have nb : ∀ r, (c!"\n" <+: r ∨ c!"\r\n" <+: r) → NotNext Blank r := by
    intro r h c cs e
    rcases h with ⟨t, h⟩ | ⟨t, h⟩
    · rw [e] at h; injection h with h1 _; rw [← h1]; simp [Blank]
    · rw [e] at h; injection h with h1 _; rw [← h1]; simp [Blank]
  obtain ⟨eb, er2⟩ := run_unique Blank b' b h.2.1 rest hb' hb (nb _ hn') (nb _ hn) er
  exact ⟨by rw [e2, ex, eb], er2, by rw [e4, ev]⟩

theorem line_match (indent : Str) (items : List (Str × Tok)) (ho : ItemsOK items) (x b rest : Str) (vals : List (Str × Str))
    (hr : Renders items x vals) (hb : ∀ c ∈ b, Blank c) (hn : c!"\n" <+: rest ∨ c!"\r\n" <+: rest) :
    ('\n' :: (indent ++ (x ++ b)), rest, vals) ∈
      run (lineRe false false indent (itemEls items)) ('\n' :: (indent ++ (x ++ (b ++ rest)))) := by
  rw [mem_lineRe, cutElems_items _ _ (itemEls_noCut items)]
  refine ⟨(x, b ++ rest, vals), b, ?_, rfl, hb, hn, rfl, by simp, rfl⟩
  rw [mem_line items ho]
  exact ⟨hr, rfl⟩

/-- names of the groups inside of an expression -/
def capNames : Re → List Str
  | .eps => []
  | .cls _ => []
  | .seq a b => capNames a ++ capNames b
  | .alt a b => capNames a ++ capNames b
  | .star _ r => capNames r
  | .cap n r => n :: capNames r
  | .look _ => []
  | .eos => []

theorem caps_names (r : Re) (s : Str) (h : Re.Hit) (hm : h ∈ run r s) : ∀ c ∈ h.2.2, c.1 ∈ capNames r := by
  induction r generalizing s h with
  | eps => rw [mem_eps] at hm; subst hm; simp
  | cls c => rw [mem_cls] at hm; obtain ⟨x, xs, rfl, _, rfl⟩ := hm; simp
  | seq a b iha ihb =>
    rw [mem_seq] at hm
    obtain ⟨h1, m1, h2, m2, rfl⟩ := hm
    intro c hc
    simp only [capNames, List.mem_append]
    rcases List.mem_append.1 hc with hc | hc
    · exact Or.inl (iha s h1 m1 c hc)
    · exact Or.inr (ihb _ h2 m2 c hc)
  | alt a b iha ihb =>
    rw [mem_alt] at hm
    intro c hc
    simp only [capNames, List.mem_append]
    rcases hm with hm | hm
    · exact Or.inl (iha s h hm c hc)
    · exact Or.inr (ihb s h hm c hc)
  | star g r ih =>
    have : ∀ n s h, h ∈ starRun (run r) g n s → ∀ c ∈ h.2.2, c.1 ∈ capNames r := by
      intro n
      induction n with
      | zero => intro s h hm; simp only [starRun, List.mem_singleton] at hm; subst hm; simp
      | succ n ihn =>
        intro s h hm
        rw [mem_starRun] at hm
        rcases hm with rfl | ⟨k, ek, h1, m1, _, h2, m2, rfl⟩
        · simp
        · cases ek
          intro c hc
          rcases List.mem_append.1 hc with hc | hc
          · exact ih s h1 m1 c hc
          · exact ihn _ h2 m2 c hc
    exact this _ s h hm
  | cap n r ih =>
    rw [mem_cap] at hm
    obtain ⟨h1, m1, rfl⟩ := hm
    intro c hc
    simp only [capNames, List.mem_cons]
    rcases List.mem_append.1 hc with hc | hc
    · exact Or.inr (ih s h1 m1 c hc)
    · simp only [List.mem_singleton] at hc; subst hc; exact Or.inl rfl
  | look r ih => rw [mem_look] at hm; rw [hm.2]; simp
  | eos =>
    simp only [run] at hm
    split at hm
    · simp only [List.mem_singleton] at hm; subst hm; simp
    · cases hm

/-- A captured value is what the expression of the variable with that name matched, or comes from a named group inside of a
user's expression. -/
theorem elems_caps (ex sp : Bool) (k : Kind) (es : List (Elem VarInfo)) (s : Str) (h : Re.Hit)
    (hm : h ∈ run (elemsRe ex sp k es) s) (c : Str × Str) (hc : c ∈ h.2.2) :
    ∃ v, Elem.var v ∈ es ∧ ((v.ignore = false ∧ v.name = c.1 ∧ ∃ s' h', h' ∈ run (altAll v.pats) s' ∧ h'.1 = c.2) ∨
      (v.ignore = false ∧ c.1 ∈ capNames (altAll v.pats)) ∨ (v.ignore = true ∧ ∃ r, v.ignArg = some r ∧ c.1 ∈ capNames r)) := by
  induction es generalizing k s h with
  | nil => simp only [elemsRe, mem_eps] at hm; subst hm; cases hc
  | cons e es ih =>
    have lift : ∀ k s h, h ∈ run (elemsRe ex sp k es) s → c ∈ h.2.2 → ∃ v, Elem.var v ∈ e :: es ∧
        ((v.ignore = false ∧ v.name = c.1 ∧ ∃ s' h', h' ∈ run (altAll v.pats) s' ∧ h'.1 = c.2) ∨
      (v.ignore = false ∧ c.1 ∈ capNames (altAll v.pats)) ∨ (v.ignore = true ∧ ∃ r, v.ignArg = some r ∧ c.1 ∈ capNames r)) := by
      intro k s h hm hc
      obtain ⟨v, hv, q⟩ := ih k s h hm hc
      exact ⟨v, by simp [hv], q⟩
    cases e with
    | ch d =>
      simp only [elemsRe] at hm
      split at hm
      · split at hm
        · exact lift _ _ _ hm hc
        · rw [mem_seq] at hm
          obtain ⟨h1, m1, h2, m2, rfl⟩ := hm
          rw [mem_blanksRe] at m1
          exact lift _ _ _ m2 (by simpa [m1.2.2] using hc)
      · split at hm
        · split at hm
          · exact lift _ _ _ hm hc
          · rw [mem_seq] at hm
            obtain ⟨h1, m1, h2, m2, rfl⟩ := hm
            rw [mem_digitsRe] at m1
            exact lift _ _ _ m2 (by simpa [m1.2.2] using hc)
        · rw [mem_seq] at hm
          obtain ⟨h1, m1, h2, m2, rfl⟩ := hm
          rw [mem_cls] at m1
          obtain ⟨x, xs, rfl, _, rfl⟩ := m1
          exact lift _ _ _ m2 (by simpa using hc)
    | var v =>
      simp only [elemsRe] at hm
      rw [mem_seq] at hm
      obtain ⟨h1, m1, h2, m2, rfl⟩ := hm
      rcases List.mem_append.1 hc with hc | hc
      · refine ⟨v, by simp, ?_⟩
        unfold varRe at m1
        split at m1
        · rename_i hi
          right; right
          refine ⟨hi, ?_⟩
          split at m1
          · rename_i r hr
            exact ⟨r, hr, caps_names _ _ _ m1 c hc⟩
          · rw [mem_WORD] at m1
            rw [m1.2.2] at hc; cases hc
        · rename_i hi
          simp only [Bool.not_eq_true] at hi
          rw [mem_cap] at m1
          obtain ⟨h3, m3, rfl⟩ := m1
          rcases List.mem_append.1 hc with hc | hc
          · exact Or.inr (Or.inl ⟨hi, caps_names _ _ _ m3 c hc⟩)
          · simp only [List.mem_singleton] at hc
            subst hc
            exact Or.inl ⟨hi, rfl, _, h3, m3, rfl⟩
      · exact lift _ _ _ m2 hc

/-! ## Variable names -/

theorem subNonWord_valid (b : Bool) (n : Str) : ∀ c ∈ subNonWord b n, isWord c = true := by
  induction n generalizing b with
  | nil => intro c hc; cases hc
  | cons d n ih =>
    intro c hc
    simp only [subNonWord] at hc
    split at hc
    · rename_i hd
      rcases List.mem_cons.1 hc with rfl | hc
      · exact hd
      · exact ih _ c hc
    · split at hc
      · exact ih _ c hc
      · rcases List.mem_cons.1 hc with rfl | hc
        · decide
        · exact ih _ c hc

theorem isDigit_word (c : Char) (h : isDigit c = true) : isWord c = true := by simp [isWord, isAlnum, h]

theorem sanitize_valid (n : Str) (hn : n ≠ []) : ∃ c cs, sanitize n = c :: cs ∧ isDigit c = false ∧
    ∀ d ∈ sanitize n, isWord d = true := by
  cases n with
  | nil => exact absurd rfl hn
  | cons c cs =>
    simp only [sanitize]
    split
    · rename_i hd
      refine ⟨'_', _, rfl, by decide, ?_⟩
      intro d hd
      rcases List.mem_cons.1 hd with rfl | hd
      · decide
      · exact subNonWord_valid _ _ d hd
    · rename_i hd
      simp only [Bool.not_eq_true] at hd
      have hv := subNonWord_valid false (c :: cs)
      simp only [subNonWord, Bool.false_eq_true, if_false] at hv ⊢
      split
      · rename_i hw
        rw [if_pos hw] at hv
        exact ⟨c, _, rfl, hd, hv⟩
      · rename_i hw
        rw [if_neg hw] at hv
        exact ⟨'_', _, rfl, by decide, hv⟩

/-! ## What is known about a variable -/

/-- the regular expressions that the user gives for a variable -/
def userRes (d : VarDef) : List Re :=
  d.ignArg.toList ++ d.attrs.filterMap (fun a => match a with
    | .pattern r => some r
    | .line r => some r
    | _ => none)

theorem varInfo_keep (attrs : List Attr) (v : VarInfo) :
    (attrs.foldl addAttr v).name = v.name ∧ (attrs.foldl addAttr v).orig = v.orig ∧
    (attrs.foldl addAttr v).ignArg = v.ignArg ∧ (attrs.foldl addAttr v).ignore = v.ignore ∧
    (∀ r ∈ (attrs.foldl addAttr v).pats, r ∈ v.pats ∨ r ∈ attrs.filterMap (fun a => match a with
      | .pattern r => some r
      | .line r => some r
      | _ => none)) := by
  induction attrs generalizing v with
  | nil => exact ⟨rfl, rfl, rfl, rfl, fun r hr => Or.inl hr⟩
  | cons a attrs ih =>
    simp only [List.foldl_cons]
    obtain ⟨h1, h2, h3, h4, h5⟩ := ih (addAttr v a)
    rw [h1, h2, h3, h4]
    refine ⟨by cases a <;> rfl, by cases a <;> rfl, by cases a <;> rfl, by cases a <;> rfl, ?_⟩
    intro r hr
    rcases h5 r hr with h | h
    · cases a with
      | pattern q =>
        simp only [addAttr, List.mem_append, List.mem_singleton] at h
        rcases h with h | h
        · exact Or.inl h
        · exact Or.inr (by simp [h])
      | line q =>
        simp only [addAttr, List.mem_append, List.mem_singleton] at h
        rcases h with h | h
        · exact Or.inl h
        · exact Or.inr (by simp [h])
      | _ => exact Or.inl h
    · cases a <;> exact Or.inr (by simp at h ⊢; simp [h])

theorem nameAttr_keep (v : VarInfo) : (nameAttr v).name = v.name ∧ (nameAttr v).orig = v.orig ∧ (nameAttr v).ignArg = v.ignArg ∧
    (∀ r ∈ (nameAttr v).pats, r ∈ v.pats ∨ (r = reLINE ∧ v.name = c!"_line_")) ∧
    ((nameAttr v).ignore = true ↔ v.ignore = true ∨ v.name = c!"ignore") := by
  unfold nameAttr
  by_cases h1 : v.name = c!"_start_"
  · simp only [h1, if_true]
    exact ⟨by trivial, by trivial, by trivial, fun r hr => Or.inl hr, by simp⟩
  · by_cases h2 : v.name = c!"_end_"
    · simp only [h2, if_true]
      exact ⟨by trivial, by trivial, by trivial, fun r hr => Or.inl hr, by simp⟩
    · by_cases h3 : v.name = c!"_line_"
      · simp only [h3, if_true]
        exact ⟨by trivial, by trivial, by trivial, fun r hr => Or.inr ⟨by simpa using hr, by trivial⟩, by simp⟩
      · by_cases h4 : v.name = c!"ignore"
        · simp only [h4, if_true]
          exact ⟨by trivial, by trivial, by trivial, fun r hr => Or.inl hr, by simp⟩
        · simp only [h1, h2, h3, h4, if_false]
          exact ⟨trivial, trivial, trivial, fun r hr => Or.inl hr, by simp⟩

theorem varInfo_facts (d : VarDef) : (varInfo d).name = sanitize d.name ∧ (varInfo d).orig = d.name ∧
    (varInfo d).ignArg = d.ignArg ∧ ((varInfo d).ignore = true ↔ sanitize d.name = c!"ignore") ∧
    (∀ r ∈ (varInfo d).pats, (r = reLINE ∧ sanitize d.name = c!"_line_") ∨ r ∈ userRes d) := by
  unfold varInfo
  obtain ⟨h1, h2, h3, h4, h5⟩ := varInfo_keep d.attrs (nameAttr ⟨d.name, sanitize d.name, .add, false, [], [], false, false, d.ignArg, false⟩)
  obtain ⟨k1, k2, k3, k4, k5⟩ := nameAttr_keep ⟨d.name, sanitize d.name, .add, false, [], [], false, false, d.ignArg, false⟩
  rw [h1, h2, h3, h4, k1, k2, k3]
  refine ⟨rfl, rfl, rfl, by simpa using k5, ?_⟩
  intro r hr
  rcases h5 r hr with h | h
  · rcases k4 r h with h | ⟨h, h'⟩
    · cases h
    · exact Or.inl ⟨h, h'⟩
  · exact Or.inr (by simp only [userRes, List.mem_append]; exact Or.inr h)

theorem altAll_noNL (rs : List Re) (h : ∀ r ∈ rs, noNL r = true) : noNL (altAll rs) = true := by
  induction rs with
  | nil => rfl
  | cons r rs ih =>
    cases rs with
    | nil => exact h r (by simp)
    | cons q rs =>
      simp only [altAll, noNL, h r (by simp), Bool.true_and]
      exact ih (fun r hr => h r (by simp [hr]))

theorem altAll_capNames (rs : List Re) (n : Str) (h : n ∈ capNames (altAll rs)) : ∃ r ∈ rs, n ∈ capNames r := by
  induction rs with
  | nil => simp [altAll, reWORD, Re.plus, capNames] at h
  | cons r rs ih =>
    cases rs with
    | nil => exact ⟨r, by simp, h⟩
    | cons q rs =>
      simp only [altAll, capNames, List.mem_append] at h
      rcases h with h | h
      · exact ⟨r, by simp, h⟩
      · obtain ⟨r', h1, h2⟩ := ih h
        exact ⟨r', by simp at h1 ⊢; simp [h1], h2⟩

theorem varRe_noNL (d : VarDef) (h : ∀ r ∈ userRes d, noNL r = true) : noNL (varRe (varInfo d)) = true := by
  obtain ⟨_, _, h3, _, h5⟩ := varInfo_facts d
  unfold varRe
  split
  · rw [h3]
    split
    · rename_i r hr
      exact h r (by simp [userRes, hr])
    · rfl
  · simp only [noNL]
    refine altAll_noNL _ (fun r hr => ?_)
    rcases h5 r hr with ⟨rfl, _⟩ | h6
    · rfl
    · exact h r h6

/-- the pieces of a line with the variables looked at -/
def infoEl : Elem VarDef → Elem VarInfo
  | .ch c => .ch c
  | .var d => .var (varInfo d)

theorem compileLine_re (ex sp : Bool) (indent : Str) (es : List (Elem VarDef)) :
    (compileLine ex sp indent es).re = lineRe ex sp indent (es.map infoEl) := by
  unfold compileLine
  have : ∀ (f : Elem VarDef → Elem VarInfo), (∀ x, f x = infoEl x) → es.map f = es.map infoEl := by
    intro f hf; exact List.map_congr_left (fun x _ => hf x)
  rw [this _ (by intro x; cases x <;> rfl)]

theorem infoEl_noNL (es : List (Elem VarDef)) (hc : Elem.ch '\n' ∉ es) (hv : ∀ d, Elem.var d ∈ es → ∀ r ∈ userRes d, noNL r = true) :
    ElemsNoNL (es.map infoEl) := by
  intro e he
  obtain ⟨x, hx, rfl⟩ := List.mem_map.1 he
  cases x with
  | ch c => rintro rfl; exact hc hx
  | var d => exact varRe_noNL d (hv d hx)

end TTP
