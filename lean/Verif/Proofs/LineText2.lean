import Verif.Proofs.LineText
/-!
# The text of a line after all variables are replaced
-/

namespace TTP
open Py Py.Re Py.ReText

/-! ## No double brace -/

/-- no `{{` in the text -/
def nb : Str → Bool
  | [] => true
  | c :: cs => !(c == '{' && cs.head? == some '{') && nb cs

theorem nb_iff (s : Str) : nb s = true ↔ ¬ c!"{{" <:+: s := by
  induction s with
  | nil => simp [nb]
  | cons c s ih =>
    simp only [nb, Bool.and_eq_true, ih, List.infix_cons_iff, not_or]
    refine and_congr ?_ Iff.rfl
    cases s with
    | nil =>
      constructor
      · intro _ h; have := h.length_le; simp at this
      · intro _; simp
    | cons d s =>
      constructor
      · rintro h ⟨t, e⟩
        injection e with e1 e
        injection e with e2 _
        subst e1; subst e2
        simp at h
      · intro h
        cases h1 : (c == '{' && (d :: s).head? == some '{') with
        | false => rfl
        | true =>
          simp at h1
          exact absurd ⟨s, by simp [h1.1, h1.2]⟩ h

theorem nb_append {a b : Str} (ha : nb a = true) (hb : nb b = true) (h : b.head? ≠ some '{') : nb (a ++ b) = true := by
  induction a with
  | nil => exact hb
  | cons c a ih =>
    simp only [nb, Bool.and_eq_true] at ha
    simp only [List.cons_append, nb, Bool.and_eq_true, ih ha.2, and_true]
    cases a with
    | nil =>
      have : (b.head? == some '{') = false := by simpa using h
      simp [this]
    | cons d a => exact ha.1

theorem brace_shift (w rest : Str) : ¬ (w ++ c!"}}") <+: '{' :: (w ++ rest) := by
  induction w with
  | nil => rintro ⟨t, e⟩; injection e with e _; exact absurd e (by decide)
  | cons c w ih =>
    rintro ⟨t, e⟩
    injection e with e1 e
    subst e1
    exact ih ⟨t, by simpa using e⟩

theorem findText_here (w a b : Str) (ha : nb a = true) : findText (escVar w) (a ++ (escVar w ++ b)) = some (a, b) := by
  induction a with
  | nil =>
    have h1 : startsWith (escVar w ++ b) (escVar w) = true := by
      unfold startsWith; rw [List.isPrefixOf_iff_prefix]; exact List.prefix_append _ _
    show findText (escVar w) (escVar w ++ b) = _
    rw [show escVar w ++ b = '{' :: ('{' :: w ++ c!"}}" ++ b) from rfl, findText,
      show '{' :: ('{' :: w ++ c!"}}" ++ b) = escVar w ++ b from rfl, if_pos h1, List.drop_left]
  | cons c a ih =>
    simp only [nb, Bool.and_eq_true] at ha
    rw [List.cons_append, findText, ih ha.2, if_neg]
    · rfl
    · unfold startsWith
      rw [List.isPrefixOf_iff_prefix]
      rintro ⟨t, e⟩
      injection e with e1 e
      subst e1
      cases a with
      | nil =>
        injection e with _ e
        refine brace_shift w (c!"}}" ++ b) ⟨t, ?_⟩
        simpa [escVar] using e
      | cons d a =>
        injection e with e1 e
        subst e1
        simp at ha

theorem findText_none (w s : Str) (hs : nb s = true) : findText (escVar w) s = none := by
  induction s with
  | nil => rfl
  | cons c s ih =>
    simp only [nb, Bool.and_eq_true] at hs
    rw [findText, ih hs.2, if_neg]
    · rfl
    · unfold startsWith
      rw [List.isPrefixOf_iff_prefix]
      rintro ⟨t, e⟩
      injection e with e1 e
      subst e1
      cases s with
      | nil => cases e
      | cons d s =>
        injection e with e1 e
        subst e1
        simp at hs

/-! ## The pieces -/

/-- text of a variable in the regular expression -/
def varText (v : TextVar) : Str :=
  if v.name = c!"ignore" then
    match v.ign with
    | .none => c!"\\S+"
    | .one p => c!"(?:" ++ p ++ c!")"
    | .many => escVar v.content
  else groupText v.name v.res

/-- text of one piece after a piece of kind `last`, and its kind -/
def pieceText (exact exactSp : Bool) (last : Kind) : Elem TextVar → Str × Kind
  | .ch c =>
    if !exactSp && isBlank c then (if last = .blank then [] else blanksText, .blank)
    else if !exact && isDigit c then (if last = .digit then [] else c!"\\d+", .digit)
    else (escapeChar c, .other)
  | .var v => (varText v, .other)

/-- text of the pieces -/
def elemsText (exact exactSp : Bool) : Kind → List (Elem TextVar) → Str
  | _, [] => []
  | last, e :: es => (pieceText exact exactSp last e).1 ++ elemsText exact exactSp (pieceText exact exactSp last e).2 es

/-- the same before the variables are replaced -/
def escText (exact exactSp : Bool) : Kind → List (Elem TextVar) → Str
  | _, [] => []
  | last, .ch c :: es => (pieceText exact exactSp last (.ch c)).1 ++ escText exact exactSp (pieceText exact exactSp last (.ch c)).2 es
  | _, .var v :: es => escVar v.content ++ escText exact exactSp .other es

theorem litText_eq (exact exactSp : Bool) (last : Kind) (c : Char) (t : Str) : litText exact exactSp last (c :: t) =
    (pieceText exact exactSp last (.ch c)).1 ++ litText exact exactSp (pieceText exact exactSp last (.ch c)).2 t := by
  rw [litText]
  by_cases h1 : (!exactSp && isBlank c) = true
  · simp only [pieceText, h1, if_true]
    by_cases h3 : last = .blank <;> simp [h3]
  · by_cases h2 : (!exact && isDigit c) = true
    · simp only [pieceText, h1, h2, if_true, Bool.false_eq_true, if_false]
      by_cases h3 : last = .digit <;> simp [h3]
    · simp only [pieceText, h1, h2, Bool.false_eq_true, if_false]

/-- kind after literal text -/
def litKind (exact exactSp : Bool) : Kind → Str → Kind
  | k, [] => k
  | k, c :: cs => litKind exact exactSp (pieceText exact exactSp k (.ch c)).2 cs

theorem litText_append (exact exactSp : Bool) (k : Kind) (a b : Str) : litText exact exactSp k (a ++ b) =
    litText exact exactSp k a ++ litText exact exactSp (litKind exact exactSp k a) b := by
  induction a generalizing k with
  | nil => rfl
  | cons c a ih => rw [List.cons_append, litText_eq, litText_eq, ih, litKind, List.append_assoc]

theorem escLine_eq (exact exactSp : Bool) (acc : Str) (es : List (Elem TextVar)) : escLine exact exactSp acc (contents es) =
    litText exact exactSp .other acc ++ escText exact exactSp (litKind exact exactSp .other acc) es := by
  induction es generalizing acc with
  | nil => simp [contents, escLine, escText, chunk_lit]
  | cons e es ih =>
    cases e with
    | ch c =>
      show escLine exact exactSp (acc ++ [c]) (contents es) = _
      rw [ih, litText_append]
      have e1 : litKind exact exactSp .other (acc ++ [c]) = (pieceText exact exactSp (litKind exact exactSp .other acc) (.ch c)).2 := by
        have : ∀ k, litKind exact exactSp k (acc ++ [c]) = (pieceText exact exactSp (litKind exact exactSp k acc) (.ch c)).2 := by
          induction acc with
          | nil => intro k; rfl
          | cons d acc ih => intro k; exact ih _
        exact this _
      rw [e1, litText_eq, escText]
      simp [litText]
    | var v =>
      show chunkText exact exactSp acc ++ escVar v.content ++ escLine exact exactSp [] (contents es) = _
      rw [ih, chunk_lit, escText]
      simp [litText, litKind]

theorem startText_eq (exact exactSp : Bool) (indent : Str) (es : List (Elem TextVar)) :
    startText exact exactSp indent (contents es) = c!"\\n" ++ indent ++ escText exact exactSp .other es ++ tailText := by
  rw [startText, escLine_eq]
  simp [litText, litKind]

/-- a variable `form_regex` can handle: the patterns have no `{{`, the name no brace, `ignore` not more than one argument -/
def TextVar.ok (v : TextVar) : Prop :=
  (∀ p ∈ v.res, nb p = true) ∧ '{' ∉ v.name ∧ v.ign ≠ .many ∧ (∀ p, v.ign = .one p → nb p = true) ∧
  (v.name = c!"ignore" → v.set = false)

theorem nb_plain (s : Str) (h : '{' ∉ s) : nb s = true := by
  rw [nb_iff]
  intro hi
  exact h (hi.mem (by simp))

theorem join_cons2 (sep a b : Str) (l : List Str) : join sep (a :: b :: l) = a ++ (sep ++ join sep (b :: l)) := by simp [join]

theorem nb_join (ps : List Str) (h : ∀ p ∈ ps, nb p = true) : nb (join c!")|(?:" ps) = true := by
  induction ps with
  | nil => rfl
  | cons p ps ih =>
    cases ps with
    | nil => simpa [join] using h p (by simp)
    | cons q ps =>
      rw [join_cons2]
      have i := ih (fun p hp => h p (by simp [hp]))
      refine nb_append (h p (by simp)) ?_ (by simp)
      show nb (c!")|(?" ++ ':' :: join c!")|(?:" (q :: ps)) = true
      refine nb_append (by decide) ?_ (by simp)
      simp only [nb, i, Bool.and_true]
      rfl

theorem nb_colon (s t : Str) (hs : nb s = true) (ht : nb t = true) (h : t.head? ≠ some '{') : nb (':' :: (s ++ t)) = true := by
  simp only [nb, nb_append hs ht h, Bool.and_true]; rfl

theorem nb_varText (v : TextVar) (h : v.ok) : nb (varText v) = true ∧ (varText v).head? ≠ some '{' := by
  obtain ⟨h1, h2, h3, h4, _⟩ := h
  unfold varText
  split
  · cases hi : v.ign with
    | none => dsimp only; exact ⟨by decide, by decide⟩
    | one p =>
      dsimp only
      refine ⟨?_, by simp⟩
      have := nb_append (a := c!"(?") (by decide) (nb_colon p c!")" (h4 p hi) (by decide) (by decide)) (by simp)
      simpa using this
    | many => exact absurd hi h3
  · refine ⟨?_, by simp [groupText]⟩
    have hj : nb (join c!")|(?:" (if v.res = [] then [c!"\\S+"] else v.res)) = true := by
      apply nb_join
      intro p hp
      split at hp
      · simp only [List.mem_cons, List.not_mem_nil, or_false] at hp; subst hp; decide
      · exact h1 p hp
    have e : groupText v.name v.res = (c!"(?P<" ++ v.name) ++ (c!">(?" ++ (':' :: (join c!")|(?:" (if v.res = [] then [c!"\\S+"] else v.res) ++ c!"))"))) := by
      simp [groupText]
    rw [e]
    refine nb_append (nb_plain _ ?_) (nb_append (by decide) (nb_colon _ _ hj (by decide) (by decide)) (by simp)) (by simp)
    simp only [List.mem_append, not_or]
    exact ⟨by decide, h2⟩

theorem nb_piece (exact exactSp : Bool) (k : Kind) (c : Char) :
    nb (pieceText exact exactSp k (.ch c)).1 = true ∧ (pieceText exact exactSp k (.ch c)).1.head? ≠ some '{' := by
  have esc : nb (escapeChar c) = true ∧ (escapeChar c).head? ≠ some '{' := by
    unfold escapeChar
    split
    · exact ⟨by simp [nb], by simp⟩
    · next h =>
      refine ⟨by simp [nb], ?_⟩
      intro e
      simp only [List.head?_cons, Option.some.injEq] at e
      subst e
      exact h (by decide)
  have bl : nb blanksText = true ∧ blanksText.head? ≠ some '{' := by decide
  have dg : nb c!"\\d+" = true ∧ (c!"\\d+" : Str).head? ≠ some '{' := by decide
  have nl : nb [] = true ∧ ([] : Str).head? ≠ some '{' := by decide
  by_cases h1 : (!exactSp && isBlank c) = true
  · simp only [pieceText, h1, if_true]
    by_cases h3 : k = .blank
    · simpa [h3] using nl
    · simpa [h3] using bl
  · by_cases h2 : (!exact && isDigit c) = true
    · simp only [pieceText, h1, h2, if_true, Bool.false_eq_true, if_false]
      by_cases h3 : k = .digit
      · simpa [h3] using nl
      · simpa [h3] using dg
    · simp only [pieceText, h1, h2, Bool.false_eq_true, if_false]
      exact esc

/-! ## One variable after the other -/

/-- is it a variable where the line is cut -/
def TextVar.cuts (v : TextVar) : Bool := (v.name == c!"_start_" || v.name == c!"_end_" || v.set) && v.name != c!"ignore"

/-- the same for a piece -/
def cutsT : Elem TextVar → Bool
  | .var v => v.cuts
  | .ch _ => false

theorem formVar_none (s : Str) (v : TextVar) (h : nb s = true) : formVar s v = s := by
  have hf := findText_none v.content s h
  have h1 : nameText v s = s := by
    unfold nameText ignoreText deleteVar replaceFirst
    rw [hf]
    dsimp only
    split
    · cases v.ign <;> rfl
    · split <;> rfl
  unfold formVar deleteVar replaceFirst
  simp only [h1, hf, ite_self]

theorem foldl_formVar_none (s : Str) (vs : List TextVar) (h : nb s = true) : vs.foldl formVar s = s := by
  induction vs with
  | nil => rfl
  | cons v vs ih => rw [List.foldl_cons, formVar_none s v h, ih]

theorem formVar_here (D R : Str) (v : TextVar) (hv : v.ok) (hD : nb D = true) (hc : v.cuts = false) :
    formVar (D ++ (escVar v.content ++ R)) v = D ++ (varText v ++ R) := by
  have hf := findText_here v.content D R hD
  unfold TextVar.cuts at hc
  unfold formVar nameText varText
  by_cases hi : v.name = c!"ignore"
  · simp only [hi, if_true, ne_eq, not_true_eq_false, if_false, hv.2.2.2.2 hi, Bool.false_eq_true]
    unfold ignoreText replaceFirst
    rw [hf]
    cases he : v.ign with
    | none => simp
    | one p => simp
    | many => exact absurd he hv.2.2.1
  · simp only [hi, if_false, ne_eq, not_false_eq_true, if_true]
    have hc' : (v.name == c!"_start_" || v.name == c!"_end_" || v.set) = false := by simpa [hi] using hc
    simp only [Bool.or_eq_false_iff, beq_eq_false_iff_ne] at hc'
    simp only [hc'.1.1, hc'.1.2, hc'.2, decide_false, Bool.or_self, Bool.false_eq_true, if_false]
    unfold replaceFirst
    rw [hf]
    simp

theorem formVar_cut (D R : Str) (v : TextVar) (hn : nb (dropBlanksText D ++ tailText) = true) (hD : nb D = true) (hc : v.cuts = true) :
    formVar (D ++ (escVar v.content ++ R)) v = dropBlanksText D ++ tailText := by
  have hf := findText_here v.content D R hD
  have hf2 := findText_none v.content _ hn
  unfold TextVar.cuts at hc
  simp only [Bool.and_eq_true, bne_iff_ne, ne_eq, Bool.or_eq_true, beq_iff_eq] at hc
  obtain ⟨hc, hi⟩ := hc
  unfold formVar nameText
  simp only [hi, if_false, ne_eq, not_false_eq_true, if_true]
  by_cases h1 : v.name = c!"_start_" ∨ v.name = c!"_end_"
  · have : (decide (v.name = c!"_start_") || decide (v.name = c!"_end_")) = true := by simpa using h1
    rw [if_pos this]
    unfold deleteVar replaceFirst
    rw [hf]
    simp only [hf2, ite_self]
  · have h2 : v.set = true := by
      rcases hc with hc | hc
      · exact absurd hc h1
      · exact hc
    have : ¬ (decide (v.name = c!"_start_") || decide (v.name = c!"_end_")) = true := by simpa using h1
    rw [if_neg this]
    unfold deleteVar replaceFirst
    rw [hf]
    simp only [hf2, h2, if_true]

theorem nb_take (s : Str) (n : Nat) (h : nb s = true) : nb (s.take n) = true := by
  rw [nb_iff] at h ⊢
  exact fun hi => h (hi.trans (List.take_prefix n s).isInfix)

theorem nb_dropBlanks (s : Str) (h : nb s = true) : nb (dropBlanksText s) = true := by
  unfold dropBlanksText
  split
  · exact nb_take _ _ h
  · exact h

theorem nb_drop_tail (s : Str) (h : nb s = true) : nb (dropBlanksText s ++ tailText) = true :=
  nb_append (nb_dropBlanks s h) (by decide) (by decide)

theorem nb_elemsText (exact exactSp : Bool) (k : Kind) (es : List (Elem TextVar)) (h : ∀ v ∈ elemVars es, v.ok) (D : Str) (hD : nb D = true) :
    nb (D ++ elemsText exact exactSp k es) = true := by
  induction es generalizing D k with
  | nil => simpa [elemsText] using hD
  | cons e es ih =>
    rw [elemsText, ← List.append_assoc]
    cases e with
    | ch c => exact ih _ h _ (nb_append hD (nb_piece _ _ _ _).1 (nb_piece _ _ _ _).2)
    | var v =>
      have := nb_varText v (h v (by simp [elemVars]))
      exact ih _ (fun w hw => h w (by simp [elemVars, hw])) _ (nb_append hD this.1 this.2)

/-- the pieces before the first cut -/
def untilCut (es : List (Elem TextVar)) : List (Elem TextVar) := es.takeWhile (fun e => !cutsT e)

theorem fold_text (exact exactSp : Bool) (es : List (Elem TextVar)) (h : ∀ v ∈ elemVars es, v.ok) (k : Kind) (D : Str) (hD : nb D = true) :
    (elemVars es).foldl formVar (D ++ (escText exact exactSp k es ++ tailText)) =
      if es.any cutsT then dropBlanksText (D ++ elemsText exact exactSp k (untilCut es)) ++ tailText
      else D ++ elemsText exact exactSp k es ++ tailText := by
  induction es generalizing D k with
  | nil => simp [elemVars, escText, elemsText]
  | cons e es ih =>
    cases e with
    | ch c =>
      rw [elemVars, escText]
      have := ih h (pieceText exact exactSp k (.ch c)).2 (D ++ (pieceText exact exactSp k (.ch c)).1)
        (nb_append hD (nb_piece _ _ _ _).1 (nb_piece _ _ _ _).2)
      simp only [List.append_assoc] at this ⊢
      rw [this]
      have e1 : (Elem.ch c :: es).any cutsT = es.any cutsT := rfl
      have e2 : untilCut (Elem.ch c :: es) = .ch c :: untilCut es := rfl
      rw [e1, e2, elemsText, elemsText]
      simp only [List.append_assoc]
    | var v =>
      have hv := h v (by simp [elemVars])
      have hv' := fun w hw => h w (by simp only [elemVars, List.mem_cons]; exact Or.inr hw)
      rw [elemVars, escText, List.foldl_cons, List.append_assoc]
      by_cases hc : v.cuts = true
      · rw [formVar_cut D _ v (nb_drop_tail D hD) hD hc, foldl_formVar_none _ _ (nb_drop_tail D hD)]
        simp [cutsT, hc, untilCut, elemsText]
      · have hc' : v.cuts = false := by simpa using hc
        rw [formVar_here D _ v hv hD hc', ← List.append_assoc]
        have := nb_varText v hv
        rw [ih hv' .other _ (nb_append hD this.1 this.2)]
        simp only [List.any_cons, cutsT, hc', Bool.false_or, untilCut, List.takeWhile_cons, Bool.not_false, if_true, elemsText, pieceText,
          List.append_assoc]

/-! ## Blanks before a cut -/

/-- the text does not end with `]+` -/
def good (s : Str) : Prop := ¬ c!"]+" <:+ s

theorem good_two (D : Str) (a b : Char) (h : a ≠ ']' ∨ b ≠ '+') : good (D ++ [a, b]) := by
  rintro ⟨t, e⟩
  have := List.append_inj_right' e rfl
  injection this with e1 e2
  injection e2 with e2 _
  rcases h with h | h
  · exact h e1.symm
  · exact h e2.symm

theorem good_one (D : Str) (b : Char) (h : b ≠ '+') : good (D ++ [b]) := by
  rintro ⟨t, e⟩
  have e' : (t ++ [']']) ++ ['+'] = D ++ [b] := by simpa using e
  have := List.append_inj_right' e' rfl
  injection this with e1 _
  exact h e1.symm

theorem good_dropBlanks (s : Str) (h : good s) : dropBlanksText s = s := by
  unfold dropBlanksText endsWith
  rw [if_neg]
  rw [List.isSuffixOf_iff_suffix]
  rintro ⟨t, e⟩
  exact h ⟨t ++ c!"[ \\t", by rw [← e]; simp [blanksText]⟩

theorem good_piece (exact exactSp : Bool) (k : Kind) (D : Str) (e : Elem TextVar) (hv : ∀ v, e = .var v → v.ok) (hg : k ≠ .blank → good D)
    (hk : (pieceText exact exactSp k e).2 ≠ .blank) : good (D ++ (pieceText exact exactSp k e).1) := by
  cases e with
  | var v =>
    show good (D ++ varText v)
    unfold varText
    split
    · cases hi : v.ign with
      | none =>
        dsimp only
        have := good_two (D ++ c!"\\") 'S' '+' (Or.inl (by decide))
        simpa using this
      | one p =>
        dsimp only
        have := good_one (D ++ c!"(?:" ++ p) ')' (by decide)
        simpa using this
      | many => exact absurd hi (hv v rfl).2.2.1
    · unfold groupText
      rw [← List.append_assoc, show c!"))" = [')', ')'] from rfl]
      exact good_two _ _ _ (Or.inr (by decide))
  | ch c =>
    unfold pieceText at hk ⊢
    dsimp only at hk ⊢
    split at hk
    · simp at hk
    · next h1 =>
      rw [if_neg h1]
      split
      · next h2 =>
        rw [if_pos h2] at hk
        dsimp only
        split
        · next h3 => subst h3; rw [List.append_nil]; exact hg (by decide)
        · have := good_two (D ++ c!"\\") 'd' '+' (Or.inl (by decide))
          simpa using this
      · dsimp only
        unfold escapeChar
        split
        · exact good_two _ _ _ (Or.inl (by decide))
        · next h3 => exact good_one _ _ (by intro e; subst e; exact h3 (by decide))

theorem pieceText_blank (exact exactSp : Bool) (k : Kind) (e : Elem TextVar) (h : (pieceText exact exactSp k e).2 = .blank) :
    exactSp = false ∧ e.isBlank = true := by
  cases e with
  | var v => cases h
  | ch c =>
    unfold pieceText at h
    dsimp only at h
    split at h
    · next h1 => simpa [Elem.isBlank] using h1
    · split at h <;> cases h

theorem elemsText_blanks (exact : Bool) (k : Kind) (b : List (Elem TextVar)) (hb : ∀ e ∈ b, e.isBlank = true) :
    elemsText exact false k b = if k = .blank ∨ b = [] then [] else blanksText := by
  have pc : ∀ (e : Elem TextVar), e.isBlank = true → ∀ k, pieceText exact false k e = (if k = .blank then [] else blanksText, .blank) := by
    intro e he k
    cases e with
    | var v => cases he
    | ch c =>
      have he' : isBlank c = true := he
      simp only [pieceText, he', Bool.not_false, Bool.and_self, if_true]
  have all : ∀ b : List (Elem TextVar), (∀ e ∈ b, e.isBlank = true) → elemsText exact false .blank b = [] := by
    intro b
    induction b with
    | nil => intro _; rfl
    | cons e b ih => intro hb; rw [elemsText, pc e (hb e (by simp))]; simpa using ih (fun e he => hb e (by simp [he]))
  cases b with
  | nil => simp [elemsText]
  | cons e b =>
    rw [elemsText, pc e (hb e (by simp)), all b (fun e he => hb e (by simp [he]))]
    by_cases hk : k = .blank <;> simp [hk]

/-- Blanks before a cut are dropped. -/
theorem drop_text (exact exactSp : Bool) (es b : List (Elem TextVar)) (h : ∀ v ∈ elemVars es, v.ok) (k : Kind) (D : Str)
    (hk : k ≠ .blank ∨ es ≠ []) (hg : k ≠ .blank → good D) (hb : ∀ e ∈ b, e.isBlank = true) (hsp : exactSp = true → b = [])
    (hl : exactSp = false → ∀ l e, es = l ++ [e] → e.isBlank = false) :
    dropBlanksText (D ++ elemsText exact exactSp k (es ++ b)) = D ++ elemsText exact exactSp k es := by
  induction es generalizing D k with
  | nil =>
    have hk' : k ≠ .blank := by simpa using hk
    rw [List.nil_append, elemsText, List.append_nil]
    cases exactSp with
    | true => rw [hsp rfl, elemsText, List.append_nil, good_dropBlanks D (hg hk')]
    | false =>
      rw [elemsText_blanks exact k b hb]
      by_cases hbe : b = []
      · simp [hbe, good_dropBlanks D (hg hk')]
      · rw [if_neg (by simp [hk', hbe])]
        unfold dropBlanksText endsWith
        rw [if_pos (by rw [List.isSuffixOf_iff_suffix]; exact List.suffix_append _ _)]
        simp
  | cons e es ih =>
    have hv : ∀ v, e = .var v → v.ok := by rintro v rfl; exact h v (by simp [elemVars])
    have hv' : ∀ v ∈ elemVars es, v.ok := by
      intro v hm
      cases e with
      | ch c => exact h v hm
      | var w => exact h v (by simp [elemVars, hm])
    rw [List.cons_append, elemsText, elemsText, ← List.append_assoc, ← List.append_assoc]
    refine ih hv' _ _ ?_ ?_ ?_
    · by_cases hes : es = []
      · subst hes
        refine Or.inl (fun hp => ?_)
        obtain ⟨h1, h2⟩ := pieceText_blank _ _ _ _ hp
        rw [hl h1 [] e rfl] at h2
        cases h2
      · exact Or.inr hes
    · intro hp; exact good_piece exact exactSp k D e hv hg hp
    · intro hs l x hx; exact hl hs (e :: l) x (by rw [hx]; rfl)

end TTP
