import Verif.Proofs.Template
/-!
# Lemmas about the attributes of variables and groups
-/

namespace TTP
open Py Spec

theorem attrTail_start (c : Char) (cs : Str) (h1 : isSpace c = false) (h2 : c ≠ '(') : attrTail (c :: cs) = none := by
  unfold attrTail
  simp only [h1, Bool.false_eq_true, if_false]
  split
  · rename_i e; cases e
  · rename_i u e; injection e with e1 _; exact absurd e1 h2
  · rfl

theorem attrTail_args (o : Str) (h : '\n' ∉ o) : attrTail (c!"(" ++ o ++ c!")") = some (some o) := by
  have e : c!"(" ++ o ++ c!")" = '(' :: (o ++ [')']) := by simp
  rw [e]
  unfold attrTail
  have hs : isSpace '(' = false := by decide
  have h1 : (o ++ [')']).getLast? = some ')' := by simp
  have h2 : (o ++ [')']).dropLast = o := by simp
  simp only [hs, Bool.false_eq_true, if_false]
  rw [h1, h2, if_pos (by simp [h])]

/-- what follows the name -/
def argText (o : Option Str) : Str :=
  match o with
  | none => []
  | some o => c!"(" ++ o ++ c!")"

theorem attrName_source (w : Str) (hne : w ≠ []) (hw : ∀ c ∈ w, isSpace c = false ∧ c ≠ '(') (o : Option Str)
    (ho : ∀ x, o = some x → '\n' ∉ x) (acc : Str) : attrName acc (w ++ argText o) = some (acc ++ w, o) := by
  induction w generalizing acc with
  | nil => exact absurd rfl hne
  | cons c cs ih =>
    obtain ⟨h1, h2⟩ := hw c (by simp)
    rw [List.cons_append, attrName, if_neg (by rw [h1]; simp)]
    cases cs with
    | nil =>
      cases o with
      | none => rfl
      | some o =>
        rw [List.nil_append, argText, attrTail_args o (ho o rfl)]
    | cons d ds =>
      obtain ⟨d1, d2⟩ := hw d (by simp)
      rw [List.cons_append, attrTail_start d _ d1 d2]
      have := ih (by simp) (fun c hc => hw c (by simp [hc])) (acc ++ [c])
      rw [List.cons_append] at this
      rw [this]
      simp

theorem source_eq (a : AttrText) : a.source = a.name ++ argText a.args := by
  unfold AttrText.source argText; rfl

theorem attrOf_source (ctx : LoadCtx) (a : AttrText) (ha : a.OK) (f : FnCall) (hf : a.Means ctx f) :
    attrOf ctx a.source = .ok f := by
  obtain ⟨h1, h2, h3⟩ := ha
  obtain ⟨g1, g2⟩ := hf
  obtain ⟨name, args, kwargs⟩ := f
  simp only at g1
  subst g1
  unfold attrOf
  rw [source_eq, attrName_source a.name h1 (fun c hc => ⟨(h2 c hc).1, (h2 c hc).2.1⟩) a.args (fun o e => (h3 o e).2) []]
  cases hargs : a.args with
  | none =>
    rw [hargs] at g2
    obtain ⟨rfl, rfl⟩ := g2
    rfl
  | some o =>
    rw [hargs] at g2
    rcases g2 with ⟨rfl, rfl, rfl⟩ | ⟨hne, he⟩
    · rfl
    · obtain ⟨c, cs, rfl⟩ := List.exists_cons_of_ne_nil hne
      simp only [List.nil_append, he]
      rfl

theorem source_ends (a : AttrText) (ha : a.OK) :
    (∃ c t, a.source = c :: t ∧ isSpace c = false) ∧ (∃ t c, a.source = t ++ [c] ∧ isSpace c = false) := by
  obtain ⟨h1, h2, h3⟩ := ha
  constructor
  · obtain ⟨c, t, e⟩ := List.exists_cons_of_ne_nil h1
    exact ⟨c, t ++ argText a.args, by rw [source_eq, e]; rfl, (h2 c (by simp [e])).1⟩
  · rw [source_eq]
    cases a.args with
    | none =>
      refine ⟨a.name.dropLast, a.name.getLast h1, ?_, (h2 _ (List.getLast_mem h1)).1⟩
      rw [List.dropLast_concat_getLast h1]; simp [argText]
    | some o => exact ⟨a.name ++ (c!"(" ++ o), ')', by simp [argText], by decide⟩

theorem strip_of_ends (s a b : Str) (ha : ∀ c ∈ a, isSpace c = true) (hb : ∀ c ∈ b, isSpace c = true)
    (h1 : ∃ c t, s = c :: t ∧ isSpace c = false) (h2 : ∃ t c, s = t ++ [c] ∧ isSpace c = false) :
    strip (a ++ s ++ b) = s := by
  obtain ⟨c, t, e1, hc⟩ := h1
  obtain ⟨t', c', e2, hc'⟩ := h2
  unfold strip
  have : lstrip (a ++ s ++ b) = s ++ b := by
    unfold lstrip
    rw [List.append_assoc, dropWhile_all _ _ _ ha, e1, List.cons_append, List.dropWhile_cons_of_neg (by simp [hc])]
  rw [this, e2, rstrip_append t' c' b hc' hb]

theorem source_no_pipe (a : AttrText) (ha : a.OK) : '|' ∉ a.source := by
  obtain ⟨h1, h2, h3⟩ := ha
  rw [source_eq]
  intro h
  rcases List.mem_append.1 h with h | h
  · exact (h2 _ h).2.2 rfl
  · cases ho : a.args with
    | none => rw [ho] at h; cases h
    | some o =>
      rw [ho] at h
      simp only [argText, List.mem_append, List.mem_cons, List.not_mem_nil, or_false] at h
      rcases h with (h | h) | h
      · exact absurd h (by decide)
      · exact (h3 o ho).1 h
      · exact absurd h (by decide)

theorem getAttributes_pipe (ctx : LoadCtx) (items : List (Str × AttrText × Str)) (fs : List FnCall) (hne : items ≠ [])
    (hi : ∀ i ∈ items, (∀ c ∈ i.1, isSpace c = true) ∧ i.2.1.OK ∧ ∀ c ∈ i.2.2, isSpace c = true)
    (hf : All2 (fun i f => i.2.1.Means ctx f) items fs) : getAttributes ctx (pipeSource items) = .ok fs := by
  have hsp : ∀ c, isSpace c = true → c ≠ '|' := by intro c h e; subst e; revert h; decide
  unfold getAttributes pipeSource
  rw [splitC_join '|' _ (by simpa using hne) (by
    intro w hw
    obtain ⟨i, hm, rfl⟩ := List.mem_map.1 hw
    obtain ⟨h1, h2, h3⟩ := hi i hm
    intro h
    rcases List.mem_append.1 h with h | h
    · rcases List.mem_append.1 h with h | h
      · exact hsp _ (h1 _ h) rfl
      · exact source_no_pipe _ h2 h
    · exact hsp _ (h3 _ h) rfl)]
  clear hne
  induction hf with
  | nil => rfl
  | @cons i f items fs h1 _ ih =>
    obtain ⟨a1, a2, a3⟩ := hi i (by simp)
    obtain ⟨e1, e2⟩ := source_ends _ a2
    simp only [List.map_cons, strip_of_ends _ _ _ a1 a3 e1 e2]
    rw [List.filter_cons_of_pos (by obtain ⟨c, t, e, _⟩ := e1; simp [e]), attrsOf, attrOf_source ctx _ a2 f h1]
    have := ih (fun i hm => hi i (by simp [hm]))
    simp only [ok_bind]
    rw [this]
    rfl

end TTP

namespace TTP
open Py Spec

/-! ## Pieces of a line -/

/-- pieces as the loader sees them -/
def pieceEls : List Piece → List (Elem Str)
  | [] => []
  | .text t :: ps => t.map .ch ++ pieceEls ps
  | .var b :: ps => .var b :: pieceEls ps

theorem untilClose_content (b rest : Str) (h : '}' ∉ b) : untilClose (b ++ c!"}}" ++ rest) = some (b, rest) := by
  induction b with
  | nil => rfl
  | cons c b ih =>
    simp only [List.mem_cons, not_or] at h
    simp only [List.cons_append] at ih ⊢
    unfold untilClose
    split
    · rename_i e; injection e with e1 _; exact absurd e1.symm h.1
    · rename_i c' cs' _ e
      injection e with e1 e2
      subst e1 e2
      have := ih h.2
      simp only [List.append_assoc, List.cons_append, List.nil_append] at this ⊢
      rw [this]; rfl
    · rename_i e; cases e

theorem elemsAux_content (b rest : Str) (hne : b ≠ []) (hb : '}' ∉ b) (n : Nat)
    (hn : (c!"{{" ++ b ++ c!"}}").length + rest.length ≤ n) :
    ∃ m, rest.length ≤ m ∧ elemsAux n (c!"{{" ++ b ++ c!"}}" ++ rest) = .var b :: elemsAux m rest := by
  obtain ⟨c, b, rfl⟩ := List.exists_cons_of_ne_nil hne
  cases n with
  | zero => simp at hn
  | succ n =>
    refine ⟨n, by simp at hn; omega, ?_⟩
    have ho : openVar (c!"{{" ++ (c :: b) ++ c!"}}" ++ rest) = some (c :: b, rest) := by
      have := untilClose_content b rest (fun h => hb (by simp [h]))
      simp only [List.cons_append, List.nil_append, List.append_assoc] at this ⊢
      simp only [openVar, this, Option.map_some]
    have e : c!"{{" ++ (c :: b) ++ c!"}}" ++ rest = '{' :: ('{' :: c :: (b ++ c!"}}" ++ rest)) := by simp
    rw [e] at ho ⊢
    simp only [elemsAux, ho]

theorem elemsAux_pieces (ps : List Piece) (ht : ∀ t, Piece.text t ∈ ps → '{' ∉ t)
    (hv : ∀ b, Piece.var b ∈ ps → b ≠ [] ∧ '}' ∉ b) (n : Nat) (hn : ((ps.map Piece.source).flatten).length ≤ n) :
    elemsAux n (ps.map Piece.source).flatten = pieceEls ps := by
  induction ps generalizing n with
  | nil => cases n <;> rfl
  | cons p ps ih =>
    have ih' := ih (fun t h => ht t (by simp [h])) (fun b h => hv b (by simp [h]))
    simp only [List.map_cons, List.flatten_cons] at hn ⊢
    rw [List.length_append] at hn
    cases p with
    | text t =>
      obtain ⟨m, h1, h2⟩ := elemsAux_chars t (ps.map Piece.source).flatten (ht t (by simp)) n hn
      simp only [Piece.source, h2, ih' m h1, pieceEls]
    | var b =>
      obtain ⟨h1, h2⟩ := hv b (by simp)
      obtain ⟨m, h3, h4⟩ := elemsAux_content b (ps.map Piece.source).flatten h1 h2 n hn
      simp only [Piece.source, h4, ih' m h3, pieceEls]

theorem elemVars_append {α : Type} (a b : List (Elem α)) : elemVars (a ++ b) = elemVars a ++ elemVars b := by
  induction a with
  | nil => rfl
  | cons e a ih => cases e <;> simp [elemVars, ih]

theorem elemVars_chars {α : Type} (s : Str) : elemVars (s.map (Elem.ch (α := α))) = [] := by
  induction s with
  | nil => rfl
  | cons c s ih => simpa [elemVars] using ih

theorem elemVars_pieces (ps : List Piece) : elemVars (pieceEls ps) = ps.filterMap (fun p => match p with
    | .text _ => none
    | .var b => some b) := by
  induction ps with
  | nil => rfl
  | cons p ps ih =>
    cases p with
    | text t => simp [pieceEls, elemVars_append, elemVars_chars, ih]
    | var b => simp [pieceEls, elemVars, ih]

theorem plainText_append (a b : List (Elem Str)) : plainText (a ++ b) = plainText a ++ plainText b := by
  induction a with
  | nil => rfl
  | cons e a ih => cases e <;> simp [plainText, ih]

theorem plainText_chars (s : Str) : plainText (s.map .ch) = s := by
  induction s with
  | nil => rfl
  | cons c s ih => simp [plainText, ih]

theorem plainText_blank (ps : List Piece) :
    (∀ c ∈ plainText (pieceEls ps), isSpace c = true) ↔ ∀ t, Piece.text t ∈ ps → ∀ c ∈ t, isSpace c = true := by
  induction ps with
  | nil => simp [pieceEls, plainText]
  | cons p ps ih =>
    cases p with
    | text t =>
      simp only [pieceEls, plainText_append, plainText_chars, List.mem_append, List.mem_cons, Piece.text.injEq]
      constructor
      · intro h u hu c hc
        rcases hu with rfl | hu
        · exact h c (Or.inl hc)
        · exact ih.1 (fun c hc => h c (Or.inr hc)) u hu c hc
      · intro h c hc
        rcases hc with hc | hc
        · exact h t (Or.inl rfl) c hc
        · exact ih.2 (fun u hu => h u (Or.inr hu)) c hc
    | var b => simp [pieceEls, plainText, ih]

theorem elems_line (l : TLine) (h : l.OK) :
    rstrip l.source = l.indent ++ (l.pieces.map Piece.source).flatten ∧
    lstrip (rstrip l.source) = (l.pieces.map Piece.source).flatten ∧
    elems (lstrip (rstrip l.source)) = pieceEls l.pieces ∧
    elems (rstrip l.source) = l.indent.map .ch ++ pieceEls l.pieces ∧ lineSkipped l.source = false := by
  obtain ⟨t, c, e1, hc⟩ := h.last
  obtain ⟨c', t', e2, hc'⟩ := h.first
  have h1 : rstrip l.source = l.indent ++ (l.pieces.map Piece.source).flatten := by
    unfold TLine.source
    rw [e1]
    have := rstrip_append (l.indent ++ t) c l.trail hc h.trail
    simpa using this
  have hl : ∀ r, lstrip (l.indent ++ ((l.pieces.map Piece.source).flatten ++ r)) = (l.pieces.map Piece.source).flatten ++ r := by
    intro r
    unfold lstrip
    rw [dropWhile_all _ _ _ h.indent, e2, List.cons_append, List.dropWhile_cons_of_neg (by simp [hc'])]
  have h2 : lstrip (rstrip l.source) = (l.pieces.map Piece.source).flatten := by
    rw [h1]
    simpa using hl []
  have hi : '{' ∉ l.indent := fun hm => by have := h.indent _ hm; revert this; decide
  have h4 : elems (rstrip l.source) = l.indent.map .ch ++ pieceEls l.pieces := by
    rw [h1]
    unfold elems
    obtain ⟨m, h3, h4⟩ := elemsAux_chars l.indent (l.pieces.map Piece.source).flatten hi
      (l.indent ++ (l.pieces.map Piece.source).flatten).length (by simp)
    rw [h4, elemsAux_pieces l.pieces h.text h.var m h3]
  refine ⟨h1, h2, ?_, h4, ?_⟩
  · rw [h2]; exact elemsAux_pieces l.pieces h.text h.var _ (Nat.le_refl _)
  · unfold lineSkipped
    have hls : lstrip l.source = (l.pieces.map Piece.source).flatten ++ l.trail := by
      have := hl l.trail
      unfold TLine.source
      rw [List.append_assoc]; exact this
    have a1 : (strip l.source).isEmpty = false := by
      cases hs : (strip l.source) with
      | cons => rfl
      | nil =>
        have := (strip_eq_nil l.source).1 hs c' (by unfold TLine.source; rw [e2]; simp)
        rw [this] at hc'; cases hc'
    have a2 : startsWith (lstrip l.source) c!"##" = false := by
      cases hs : startsWith (lstrip l.source) c!"##" with
      | false => rfl
      | true =>
        exfalso
        obtain ⟨r, hr⟩ := (isPrefixOf_iff' _ _).1 hs
        rw [hls] at hr
        apply h.no_comment
        rw [e1] at hr ⊢
        cases t with
        | nil =>
          simp only [List.nil_append, List.cons_append, List.cons.injEq] at hr
          have : l.trail = '#' :: r := hr.2
          have hx := h.trail '#' (by simp [this])
          exact absurd hx (by decide)
        | cons x t =>
          cases t with
          | nil =>
            simp only [List.nil_append, List.cons_append, List.cons.injEq] at hr
            exact ⟨[], by simp [hr.1, hr.2.1]⟩
          | cons y t =>
            simp only [List.nil_append, List.cons_append, List.cons.injEq] at hr
            exact ⟨t ++ [c], by simp [hr.1, hr.2.1]⟩
    have a3 : (elemVars (elems (rstrip l.source))).isEmpty = false := by
      rw [h4, elemVars_append, elemVars_chars, List.nil_append, elemVars_pieces]
      have := h.some_var
      unfold TLine.contents at this
      cases hx : (List.filterMap (fun p => match p with
        | Piece.text t => none
        | Piece.var b => some b) l.pieces) with
      | nil => exact absurd hx this
      | cons => rfl
    rw [a1, a2, a3]; rfl

/-! ## Defaults -/

/-- one function of a variable -/
def applyDecl (blank : Bool) (n : Str) (d : Dict Key Val) (f : FnCall) : Dict Key Val :=
  match declares blank f with
  | some v => Dict.set d (.s n) v
  | none => d

theorem extract_defaults (ctx : LoadCtx) (orig line : Str) (horig : orig ∉ skipDefaults) (n : Nat) (f : FnCall)
    (hf : f.name ≠ c!"chain") (st st' : VarSt) (h : extract ctx orig line n f st = .ok st') (blank : Bool)
    (hb : blank = true ↔ rstrip line = []) : st'.defaults = applyDecl blank orig st.defaults f := by
  cases n with
  | zero => rw [extract] at h; cases h
  | succ n =>
    have other : f.name ≠ c!"default" → f.name ≠ c!"set" → applyDecl blank orig st.defaults f = st.defaults := by
      intro h1 h2; simp [applyDecl, declares, h1, h2]
    rw [extract] at h
    by_cases hn : f.name = c!"ignore"
    · rw [if_pos hn] at h
      simp only [pure_ok, Except.ok.injEq] at h; subst h
      exact (other (by rw [hn]; decide) (by rw [hn]; decide)).symm
    rw [if_neg hn] at h
    by_cases hn : (f.name = c!"_start_" || f.name = c!"_headers_") = true
    · rw [if_pos hn] at h
      simp only [pure_ok, Except.ok.injEq] at h; subst h
      simp only [Bool.or_eq_true, decide_eq_true_eq] at hn
      exact (other (by rcases hn with hn | hn <;> rw [hn] <;> decide) (by rcases hn with hn | hn <;> rw [hn] <;> decide)).symm
    rw [if_neg hn] at h
    by_cases hn : f.name = c!"_end_"
    · rw [if_pos hn] at h
      simp only [pure_ok, Except.ok.injEq] at h; subst h
      exact (other (by rw [hn]; decide) (by rw [hn]; decide)).symm
    rw [if_neg hn] at h
    by_cases hn : f.name = c!"_line_"
    · rw [if_pos hn] at h
      rw [bind_ok_iff] at h; obtain ⟨r, _, h⟩ := h; simp only [pure_ok, Except.ok.injEq] at h; subst h
      exact (other (by rw [hn]; decide) (by rw [hn]; decide)).symm
    rw [if_neg hn] at h
    by_cases hn : (f.name = c!"_exact_" || f.name = c!"_exact_space_" || f.name = c!"columns") = true
    · rw [if_pos hn] at h
      simp only [pure_ok, Except.ok.injEq] at h; subst h
      simp only [Bool.or_eq_true, decide_eq_true_eq] at hn
      exact (other (by rcases hn with (hn | hn) | hn <;> rw [hn] <;> decide) (by rcases hn with (hn | hn) | hn <;> rw [hn] <;> decide)).symm
    rw [if_neg hn] at h
    rw [if_neg hf] at h
    by_cases hset : f.name = c!"set"
    · rw [if_pos hset] at h
      have hnd : f.name ≠ c!"default" := by rw [hset]; decide
      by_cases hl : rstrip line = []
      · rw [if_neg (by simp [hl])] at h
        have : blank = true := hb.2 hl
        cases ha : f.args with
        | nil => rw [ha] at h; cases h
        | cons a as =>
          rw [ha] at h
          simp only [pure_ok, Except.ok.injEq] at h; subst h
          unfold applyDecl declares
          rw [if_neg hnd, if_pos ⟨hset, this⟩, ha]
          rfl
      · rw [if_pos hl] at h
        simp only [pure_ok, Except.ok.injEq] at h; subst h
        have : blank = false := by
          cases blank with
          | false => rfl
          | true => exact absurd (hb.1 rfl) hl
        simp only [applyDecl, declares, hnd, this, if_false, Bool.false_eq_true, and_false]
    rw [if_neg hset] at h
    by_cases hdef : f.name = c!"default"
    · rw [if_pos hdef, if_neg horig] at h
      have hm : ∀ w, (match f.args with
          | [a] => pure (f := PyM) (α := VarSt) { st with defaults := Dict.set st.defaults (.s orig) a }
          | _ => pure { st with defaults := Dict.set st.defaults (.s orig) (.str c!"None") }) = .ok w →
          w.defaults = applyDecl blank orig st.defaults f := by
        intro w hw
        unfold applyDecl declares
        rw [if_pos hdef]
        match hargs : f.args with
        | [] => rw [hargs] at hw; simp only [pure_ok, Except.ok.injEq] at hw; subst hw; rfl
        | [a] => rw [hargs] at hw; simp only [pure_ok, Except.ok.injEq] at hw; subst hw; rfl
        | a :: b :: c => rw [hargs] at hw; simp only [pure_ok, Except.ok.injEq] at hw; subst hw; rfl
      exact hm st' h
    rw [if_neg hdef] at h
    by_cases hn : f.name = c!"joinmatches"
    · rw [if_pos hn] at h
      simp only [pure_ok, Except.ok.injEq] at h; subst h
      exact (other hdef hset).symm
    rw [if_neg hn] at h
    by_cases hn : f.name = c!"re"
    · rw [if_pos hn] at h
      rw [bind_ok_iff] at h; obtain ⟨r, _, h⟩ := h; simp only [pure_ok, Except.ok.injEq] at h; subst h
      exact (other hdef hset).symm
    rw [if_neg hn] at h
    by_cases hn : f.name ∈ argKeywords
    · rw [if_pos hn] at h
      rw [bind_ok_iff] at h; obtain ⟨r, _, h⟩ := h; simp only [pure_ok, Except.ok.injEq] at h; subst h
      exact (other hdef hset).symm
    rw [if_neg hn] at h
    by_cases hn : (ctx.patterns f.name).isSome = true
    · rw [if_pos hn] at h
      rw [bind_ok_iff] at h; obtain ⟨r, _, h⟩ := h; simp only [pure_ok, Except.ok.injEq] at h; subst h
      exact (other hdef hset).symm
    rw [if_neg hn] at h
    simp only [pure_ok, Except.ok.injEq] at h; subst h
    exact (other hdef hset).symm

/-- other names are never touched -/
theorem extract_other (ctx : LoadCtx) (orig line : Str) (n : Nat) (f : FnCall)
    (hf : f.name ≠ c!"chain") (st st' : VarSt) (h : extract ctx orig line n f st = .ok st') (k : Str) (hk : k ≠ orig) :
    Dict.get? st'.defaults (.s k) = Dict.get? st.defaults (.s k) := by
  have hset : ∀ v, Dict.get? (Dict.set st.defaults (.s orig) v) (.s k) = Dict.get? st.defaults (.s k) := by
    intro v; exact Dict.get?_set_ne _ _ (by intro e; injection e with e; exact hk e.symm)
  cases n with
  | zero => rw [extract] at h; cases h
  | succ n =>
    rw [extract] at h
    by_cases hn : f.name = c!"ignore"
    · rw [if_pos hn] at h
      simp only [pure_ok, Except.ok.injEq] at h; subst h
      rfl
    rw [if_neg hn] at h
    by_cases hn : (f.name = c!"_start_" || f.name = c!"_headers_") = true
    · rw [if_pos hn] at h
      simp only [pure_ok, Except.ok.injEq] at h; subst h
      rfl
    rw [if_neg hn] at h
    by_cases hn : f.name = c!"_end_"
    · rw [if_pos hn] at h
      simp only [pure_ok, Except.ok.injEq] at h; subst h
      rfl
    rw [if_neg hn] at h
    by_cases hn : f.name = c!"_line_"
    · rw [if_pos hn] at h
      rw [bind_ok_iff] at h; obtain ⟨r, _, h⟩ := h; simp only [pure_ok, Except.ok.injEq] at h; subst h
      rfl
    rw [if_neg hn] at h
    by_cases hn : (f.name = c!"_exact_" || f.name = c!"_exact_space_" || f.name = c!"columns") = true
    · rw [if_pos hn] at h
      simp only [pure_ok, Except.ok.injEq] at h; subst h
      rfl
    rw [if_neg hn] at h
    rw [if_neg hf] at h
    by_cases hset' : f.name = c!"set"
    · rw [if_pos hset'] at h
      by_cases hl : rstrip line = []
      · rw [if_neg (by simp [hl])] at h
        cases ha : f.args with
        | nil => rw [ha] at h; cases h
        | cons a as =>
          rw [ha] at h
          simp only [pure_ok, Except.ok.injEq] at h; subst h
          exact hset _
      · rw [if_pos hl] at h
        simp only [pure_ok, Except.ok.injEq] at h; subst h
        rfl
    rw [if_neg hset'] at h
    by_cases hdef : f.name = c!"default"
    · rw [if_pos hdef] at h
      by_cases hs : orig ∈ skipDefaults
      · rw [if_pos hs] at h
        simp only [pure_ok, Except.ok.injEq] at h; subst h
        rfl
      · rw [if_neg hs] at h
        have hm : ∀ w, (match f.args with
            | [a] => pure (f := PyM) (α := VarSt) { st with defaults := Dict.set st.defaults (.s orig) a }
            | _ => pure { st with defaults := Dict.set st.defaults (.s orig) (.str c!"None") }) = .ok w →
            ∃ v, w.defaults = Dict.set st.defaults (.s orig) v := by
          intro w hw
          match hargs : f.args with
          | [] => rw [hargs] at hw; simp only [pure_ok, Except.ok.injEq] at hw; subst hw; exact ⟨_, rfl⟩
          | [a] => rw [hargs] at hw; simp only [pure_ok, Except.ok.injEq] at hw; subst hw; exact ⟨_, rfl⟩
          | a :: b :: c => rw [hargs] at hw; simp only [pure_ok, Except.ok.injEq] at hw; subst hw; exact ⟨_, rfl⟩
        obtain ⟨v, hv⟩ := hm st' h
        rw [hv]; exact hset v
    rw [if_neg hdef] at h
    by_cases hn : f.name = c!"joinmatches"
    · rw [if_pos hn] at h
      simp only [pure_ok, Except.ok.injEq] at h; subst h
      rfl
    rw [if_neg hn] at h
    by_cases hn : f.name = c!"re"
    · rw [if_pos hn] at h
      rw [bind_ok_iff] at h; obtain ⟨r, _, h⟩ := h; simp only [pure_ok, Except.ok.injEq] at h; subst h
      rfl
    rw [if_neg hn] at h
    by_cases hn : f.name ∈ argKeywords
    · rw [if_pos hn] at h
      rw [bind_ok_iff] at h; obtain ⟨r, _, h⟩ := h; simp only [pure_ok, Except.ok.injEq] at h; subst h
      rfl
    rw [if_neg hn] at h
    by_cases hn : (ctx.patterns f.name).isSome = true
    · rw [if_pos hn] at h
      rw [bind_ok_iff] at h; obtain ⟨r, _, h⟩ := h; simp only [pure_ok, Except.ok.injEq] at h; subst h
      rfl
    rw [if_neg hn] at h
    simp only [pure_ok, Except.ok.injEq] at h; subst h
    rfl

theorem extractAll_defaults (ctx : LoadCtx) (orig line : Str) (horig : orig ∉ skipDefaults) (n : Nat) (fs : List FnCall)
    (hf : ∀ f ∈ fs, f.name ≠ c!"chain") (st st' : VarSt) (h : extractAll ctx orig line n fs st = .ok st') (blank : Bool)
    (hb : blank = true ↔ rstrip line = []) : st'.defaults = fs.foldl (applyDecl blank orig) st.defaults := by
  induction fs generalizing st with
  | nil => simp only [extractAll, eachAttr, pure_ok, Except.ok.injEq] at h; subst h; rfl
  | cons f fs ih =>
    simp only [extractAll, eachAttr] at h
    rw [bind_ok_iff] at h
    obtain ⟨s1, h1, h2⟩ := h
    rw [ih (fun f hf' => hf f (by simp [hf'])) s1 h2,
      extract_defaults ctx orig line horig n f (hf f (by simp)) st s1 h1 blank hb]
    rfl

theorem extractAll_other (ctx : LoadCtx) (orig line : Str) (n : Nat) (fs : List FnCall)
    (hf : ∀ f ∈ fs, f.name ≠ c!"chain") (st st' : VarSt) (h : extractAll ctx orig line n fs st = .ok st') (k : Str)
    (hk : k ≠ orig) : Dict.get? st'.defaults (.s k) = Dict.get? st.defaults (.s k) := by
  induction fs generalizing st with
  | nil => simp only [extractAll, eachAttr, pure_ok, Except.ok.injEq] at h; subst h; rfl
  | cons f fs ih =>
    simp only [extractAll, eachAttr] at h
    rw [bind_ok_iff] at h
    obtain ⟨s1, h1, h2⟩ := h
    rw [ih (fun f hf' => hf f (by simp [hf'])) s1 h2, extract_other ctx orig line n f (hf f (by simp)) st s1 h1 k hk]

theorem applyDecl_get (blank : Bool) (n : Str) (fs : List FnCall) (d : Dict Key Val) :
    Dict.get? (fs.foldl (applyDecl blank n) d) (.s n) =
      ((fs.filterMap (declares blank)).getLast?).or (Dict.get? d (.s n)) := by
  induction fs generalizing d with
  | nil => simp
  | cons f fs ih =>
    rw [List.foldl_cons, ih]
    cases hd : declares blank f with
    | none => simp [applyDecl, hd]
    | some v =>
      simp only [applyDecl, hd, Dict.get?_set_self, List.filterMap_cons]
      cases hl : (List.filterMap (declares blank) fs) with
      | nil => simp
      | cons a as => simp [List.getLast?_cons]

/-- the group's default for all variables, if it is a text -/
def textDefault (dflt : Val) : Option Val :=
  match dflt with
  | .str s => if s = c!"_Not_Given_" then none else some (.str s)
  | _ => none

theorem groupDefault_get (dflt : Val) (n : Str) (hn : n ∉ skipDefaults) (d : Dict Key Val) :
    Dict.get? (groupDefault dflt n d) (.s n) = (Dict.get? d (.s n)).or (textDefault dflt) := by
  unfold groupDefault textDefault
  cases dflt with
  | str s =>
    by_cases hs : s = c!"_Not_Given_"
    · simp [hs]
    · by_cases hd : Dict.has d (.s n) = true
      · have : (Dict.get? d (.s n)).isSome = true := hd
        simp only
        rw [if_neg (by simp [hd])]
        obtain ⟨v, hv⟩ := Option.isSome_iff_exists.1 this
        simp [hv]
      · have hd' : Dict.has d (.s n) = false := by simpa using hd
        simp only
        rw [if_pos (by simp [hs, hd', hn]), Dict.get?_set_self]
        have : Dict.get? d (.s n) = none := by
          cases hg : Dict.get? d (.s n) with
          | none => rfl
          | some v => simp [Dict.has, hg] at hd'
        simp [this, hs]
  | _ => simp

theorem groupDefault_other (dflt : Val) (n k : Str) (hk : k ≠ n) (d : Dict Key Val) :
    Dict.get? (groupDefault dflt n d) (.s k) = Dict.get? d (.s k) := by
  unfold groupDefault
  split
  · split
    · exact Dict.get?_set_ne _ _ (by intro e; injection e with e; exact hk e.symm)
    · rfl
  · rfl

end TTP

namespace TTP
open Py Spec

/-- one variable -/
def applyVar (dflt : Val) (d : Dict Key Val) (v : PVar) : Dict Key Val :=
  v.attrs.foldl (applyDecl v.blank v.name) (groupDefault dflt v.name d)

theorem get?_applyDecls_other (b : Bool) (n k : Str) (hk : k ≠ n) (fs : List FnCall) (d : Dict Key Val) :
    Dict.get? (fs.foldl (applyDecl b n) d) (.s k) = Dict.get? d (.s k) := by
  induction fs generalizing d with
  | nil => rfl
  | cons f fs ih =>
    rw [List.foldl_cons, ih]
    unfold applyDecl
    split
    · exact Dict.get?_set_ne _ _ (by intro e; injection e with e; exact hk e.symm)
    · rfl

/-- the loaded variables have the defaults of the parsed ones -/
structure PVarOK (ctx : LoadCtx) (lineBlank : Prop) (b : Str) (v : PVar) : Prop where
  attrs : ∃ h, getAttributes ctx b = .ok (h :: v.attrs) ∧ v.name = h.name
  blank : v.blank = true ↔ lineBlank
  word : ∀ c ∈ v.name, isWord c = true
  digit : ∀ c cs, v.name = c :: cs → isDigit c = false
  key : v.name ∈ keywords → v.name ∈ skipDefaults
  chain : ∀ f ∈ v.attrs, f.name ≠ c!"chain"

theorem loadVar_defaults (ctx : LoadCtx) (dflt : Val) (line b : Str) (v : PVar) (hv : PVarOK ctx (rstrip line = []) b v)
    (d : Dict Key Val) (vd : VarDef) (d' : Dict Key Val) (sk : Bool) (h : loadVar ctx dflt line b d = .ok (vd, d', sk)) (n : Str)
    (hn : n ∉ skipDefaults) : Dict.get? d' (.s n) = Dict.get? (applyVar dflt d v) (.s n) := by
  obtain ⟨⟨hd, ha, hname⟩, hb, hw, hdig, hkey, hch⟩ := hv
  unfold loadVar at h
  rw [ha] at h
  simp only [ok_bind] at h
  rw [bind_ok_iff] at h
  obtain ⟨st, h1, h⟩ := h
  have hst : st.defaults = d' := by
    split at h
    · rw [bind_ok_iff] at h
      obtain ⟨ign, _, h⟩ := h
      simp only [pure_ok, Except.ok.injEq, Prod.mk.injEq] at h
      exact h.2.1
    · simp only [pure_ok, ok_bind, Except.ok.injEq, Prod.mk.injEq] at h
      exact h.2.1
  subst hst
  have hsan : sanitize hd.name = hd.name := by rw [← hname]; exact sanitize_word _ hw hdig
  have hfirst : (if sanitize hd.name ∈ skipDefaults then ([] : List FnCall)
      else if sanitize hd.name ∈ keywords then [{ hd with name := sanitize hd.name }] else []) = [] := by
    rw [hsan, ← hname]
    split
    · rfl
    · rename_i h1
      rw [if_neg (fun h2 => h1 (hkey h2))]
  rw [hfirst, List.nil_append] at h1
  by_cases hns : v.name ∈ skipDefaults
  · have hne : n ≠ v.name := fun e => hn (e ▸ hns)
    rw [extractAll_other ctx hd.name line _ v.attrs hch _ st h1 n (by rw [← hname]; exact hne)]
    unfold applyVar
    rw [get?_applyDecls_other _ _ _ hne, ← hname]
  · rw [extractAll_defaults ctx hd.name line (by rw [← hname]; exact hns) _ v.attrs hch _ st h1 v.blank hb]
    unfold applyVar
    rw [← hname]

theorem lineVariables_defaults (ctx : LoadCtx) (dflt : Val) (line : Str) (es : List (Elem Str)) (vs : List PVar)
    (hv : All2 (PVarOK ctx (rstrip line = [])) (elemVars es) vs) (n : Str) (hn : n ∉ skipDefaults)
    (d e : Dict Key Val) (hde : Dict.get? d (.s n) = Dict.get? e (.s n)) (r : List (Elem VarDef)) (d' : Dict Key Val) (sk : Bool)
    (h : lineVariables ctx dflt line es d = .ok (r, d', sk)) :
    Dict.get? d' (.s n) = Dict.get? (vs.foldl (applyVar dflt) e) (.s n) := by
  induction es generalizing d e vs r d' sk with
  | nil =>
    cases hv
    simp only [lineVariables, pure_ok, Except.ok.injEq, Prod.mk.injEq] at h
    obtain ⟨_, rfl, _⟩ := h
    exact hde
  | cons x es ih =>
    cases x with
    | ch c =>
      simp only [lineVariables] at h
      rw [bind_ok_iff] at h
      obtain ⟨⟨r1, d1, s1⟩, h1, h⟩ := h
      simp only [pure_ok, Except.ok.injEq, Prod.mk.injEq] at h
      obtain ⟨_, rfl, _⟩ := h
      exact ih vs hv d e hde _ _ _ h1
    | var b =>
      simp only [elemVars] at hv
      cases hv with
      | @cons _ v _ vs hv1 hv2 =>
        simp only [lineVariables] at h
        rw [bind_ok_iff] at h
        obtain ⟨⟨v1, d1, s1⟩, h1, h⟩ := h
        rw [bind_ok_iff] at h
        obtain ⟨⟨r2, d2, s2⟩, h2, h⟩ := h
        simp only [pure_ok, Except.ok.injEq, Prod.mk.injEq] at h
        obtain ⟨_, rfl, _⟩ := h
        rw [List.foldl_cons]
        refine ih vs hv2 d1 _ ?_ _ _ _ h2
        rw [loadVar_defaults ctx dflt line b v hv1 d _ _ _ h1 n hn]
        unfold applyVar
        by_cases hne : n = v.name
        · subst hne
          rw [applyDecl_get, applyDecl_get, groupDefault_get _ _ hn, groupDefault_get _ _ hn, hde]
        · rw [get?_applyDecls_other _ _ _ hne, get?_applyDecls_other _ _ _ hne, groupDefault_other _ _ _ hne,
            groupDefault_other _ _ _ hne, hde]

theorem All2_imp' {α β : Type} {r s : α → β → Prop} {as : List α} {bs : List β} (h : All2 r as bs)
    (hi : ∀ a b, r a b → s a b) : All2 s as bs := by
  induction h with
  | nil => exact .nil
  | cons h1 _ ih => exact .cons (hi _ _ h1) ih

theorem headersVar_none (ctx : LoadCtx) (es : List (Elem Str))
    (h : ∀ b ∈ elemVars es, ∀ f fs, getAttributes ctx b = .ok (f :: fs) → sanitize f.name ≠ c!"_headers_") : headersVar ctx es = none := by
  unfold headersVar
  split
  · rename_i b e
    split
    · rename_i f fs e2
      rw [if_neg (h b (by rw [e]; simp) f fs e2)]
    · rfl
  · rfl

theorem all2_left {α β : Type} {r : α → β → Prop} {as : List α} {bs : List β} (h : All2 r as bs) (a : α) (ha : a ∈ as) : ∃ b, r a b := by
  induction h with
  | nil => cases ha
  | @cons a' b' as bs h1 _ ih =>
    rcases List.mem_cons.1 ha with rfl | ha
    · exact ⟨b', h1⟩
    · exact ih ha

theorem loadLines_defaults (ctx : LoadCtx) (dflt : Val) (ss : List Str) (ls : List TLine) (hl : LinesAre ss ls) (vs : List PVar)
    (hv : VarsOf ctx ls vs) (n : Str) (hn : n ∉ skipDefaults)
    (d e : Dict Key Val) (hde : Dict.get? d (.s n) = Dict.get? e (.s n)) (rs : List LineRx) (d' : Dict Key Val)
    (h : loadLines ctx dflt ss d = .ok (rs, d')) :
    Dict.get? d' (.s n) = Dict.get? (vs.foldl (applyVar dflt) e) (.s n) := by
  induction hl generalizing vs d e rs d' with
  | nil =>
    cases hv
    simp only [loadLines, pure_ok, Except.ok.injEq, Prod.mk.injEq] at h
    obtain ⟨_, rfl⟩ := h
    exact hde
  | skip hm _ ih =>
    rw [loadLines, if_pos ((lineSkipped_iff _).2 hm)] at h
    exact ih vs hv d e hde rs d' h
  | @line ss ls l _ ih =>
    cases hv with
    | @cons _ _ vs ws hok hvs hws =>
      obtain ⟨h1, h2, h3, h4, h5⟩ := elems_line l hok
      rw [loadLines, if_neg (by rw [h5]; simp)] at h
      rw [bind_ok_iff] at h
      obtain ⟨⟨r1, d1⟩, g1, h⟩ := h
      rw [bind_ok_iff] at h
      obtain ⟨⟨r2, d2⟩, g2, h⟩ := h
      simp only [pure_ok, Except.ok.injEq, Prod.mk.injEq] at h
      obtain ⟨_, rfl⟩ := h
      rw [List.foldl_append]
      refine ih ws hws d1 _ ?_ r2 d2 g2
      unfold loadLine at g1
      have hh0 : headersVar ctx (elems (lstrip (rstrip l.source))) = none := by
        apply headersVar_none
        intro b hb f fs hf
        rw [h3, elemVars_pieces] at hb
        obtain ⟨v, hh, a1, a2, a3, a4, a5, a6, a7⟩ := all2_left hvs b hb
        rw [hf] at a1
        simp only [Except.ok.injEq, List.cons.injEq] at a1
        rw [a1.1, ← a2, sanitize_word _ a4 a5]
        intro e
        rw [e] at a6
        exact absurd (a6 (by decide)) (by decide)
      simp only [hh0] at g1
      rw [bind_ok_iff] at g1
      obtain ⟨⟨es, d3, sk⟩, g3, g1⟩ := g1
      have hd : d3 = d1 := by
        cases sk with
        | true =>
          simp only [if_true, pure_ok, Except.ok.injEq, Prod.mk.injEq] at g1
          exact g1.2
        | false =>
          simp only [Bool.false_eq_true, if_false] at g1
          obtain ⟨rx, _, g1⟩ := (bind_ok_iff _ _ _).1 g1
          simp only [pure_ok, Except.ok.injEq, Prod.mk.injEq] at g1
          exact g1.2
      subst hd
      rw [h3, h4] at g3
      refine lineVariables_defaults ctx dflt _ _ vs ?_ n hn d e hde _ _ _ g3
      rw [elemVars_pieces]
      refine All2_imp' hvs ?_
      rintro b v ⟨hh, a1, a2, a3, a4, a5, a6, a7⟩
      refine ⟨⟨hh, a1, a2⟩, ?_, a4, a5, a6, a7⟩
      rw [a3, rstrip_eq_nil, plainText_append, plainText_chars]
      unfold TLine.Blank
      rw [← plainText_blank]
      constructor
      · intro hb c hc
        rcases List.mem_append.1 hc with hc | hc
        · exact hok.indent c hc
        · exact hb c hc
      · intro hb c hc; exact hb c (List.mem_append_right _ hc)

theorem applyVars_get (dflt : Val) (vs : List PVar) (n : Str) (hn : n ∉ skipDefaults) (e : Dict Key Val) :
    Dict.get? (vs.foldl (applyVar dflt) e) (.s n) =
      ((declared n vs).getLast?).or ((Dict.get? e (.s n)).or (if n ∈ vs.map (·.name) then textDefault dflt else none)) := by
  induction vs generalizing e with
  | nil => simp [declared]
  | cons v vs ih =>
    rw [List.foldl_cons, ih]
    unfold applyVar
    by_cases hne : n = v.name
    · subst hne
      rw [applyDecl_get, groupDefault_get _ _ hn]
      have hdec : declared v.name (v :: vs) = v.attrs.filterMap (declares v.blank) ++ declared v.name vs := by
        simp [declared]
      rw [hdec, List.getLast?_append]
      simp only [List.map_cons, List.mem_cons, true_or, if_true]
      cases (declared v.name vs).getLast? <;> cases (v.attrs.filterMap (declares v.blank)).getLast? <;>
        cases Dict.get? e (.s v.name) <;> cases textDefault dflt <;> simp
    · rw [get?_applyDecls_other _ _ _ hne, groupDefault_other _ _ _ hne]
      have hdec : declared n (v :: vs) = declared n vs := by
        simp [declared, Ne.symm hne]
      rw [hdec]
      simp only [List.map_cons, List.mem_cons, hne, false_or]

end TTP

namespace TTP
open Py Spec

/-- value of a dictionary default -/
def dictDefault (dflt : Val) (n : Str) : Option Val :=
  match dflt with
  | .dict dd => Dict.get? dd (.s n)
  | _ => none

/-- the default of a name -/
def defaultOf (dflt : Val) (vs : List PVar) (n : Str) : Option Val :=
  (dictDefault dflt n).or (((declared n vs).getLast?).or (if n ∈ vs.map (·.name) then textDefault dflt else none))

theorem declared_append (n : Str) (a b : List PVar) : declared n (a ++ b) = declared n a ++ declared n b := by
  simp [declared]

theorem getRegexes_defaults (ctx : LoadCtx) (a : GAttrs) (hwf : ∀ dd, a.dflt = .dict dd → Dict.WF dd) (tail : Bool) (text : Str)
    (ls : List TLine) (hl : LinesAre (Format.splitlines text) ls) (vs vs0 : List PVar) (hv : VarsOf ctx ls vs) (n : Str)
    (hn : n ∉ skipDefaults) (g g' : GState)
    (hg : (dictDefault a.dflt n).or (Dict.get? g.defaults (.s n)) = defaultOf a.dflt vs0 n)
    (h : getRegexes ctx a tail (some text) g = .ok g') : Dict.get? g'.defaults (.s n) = defaultOf a.dflt (vs0 ++ vs) n := by
  simp only [getRegexes] at h
  rw [bind_ok_iff] at h
  obtain ⟨⟨rs, d⟩, h1, h⟩ := h
  have hd := loadLines_defaults ctx a.dflt _ ls hl vs hv n hn g.defaults g.defaults rfl rs d h1
  rw [applyVars_get _ _ _ hn] at hd
  have hfin : Dict.get? g'.defaults (.s n) = (dictDefault a.dflt n).or (Dict.get? d (.s n)) := by
    cases hdf : a.dflt with
    | dict dd =>
      rw [hdf] at h
      simp only [pure_ok, Except.ok.injEq] at h
      subst h
      simp only [dictDefault, Dict.get?_update _ _ (hwf dd hdf)]
    | _ =>
      rw [hdf] at h
      simp only [pure_ok, Except.ok.injEq] at h
      subst h
      simp [dictDefault]
  rw [hfin, hd]
  unfold defaultOf at hg ⊢
  rw [declared_append, List.getLast?_append, List.map_append]
  simp only [List.mem_append]
  revert hg
  generalize hA : dictDefault a.dflt n = A
  generalize hB : (declared n vs).getLast? = B
  generalize hC : (declared n vs0).getLast? = C
  generalize hT : textDefault a.dflt = T
  generalize hG : Dict.get? g.defaults (.s n) = G
  intro hg
  cases A with
  | some x => simp
  | none =>
    simp only [Option.none_or] at hg ⊢
    rw [hg]
    cases B with
    | some y => simp
    | none =>
      cases C with
      | some z => simp
      | none =>
        by_cases m1 : n ∈ vs0.map (·.name) <;> by_cases m2 : n ∈ vs.map (·.name) <;> cases T <;> simp [m1, m2]

theorem linesAre_append (a b : List Str) (ls : List TLine) (h : LinesAre (a ++ b) ls) :
    ∃ l1 l2, ls = l1 ++ l2 ∧ LinesAre a l1 ∧ LinesAre b l2 := by
  induction a generalizing ls with
  | nil => exact ⟨[], ls, rfl, .nil, h⟩
  | cons s a ih =>
    cases h with
    | skip hm h =>
      obtain ⟨l1, l2, e, h1, h2⟩ := ih _ h
      exact ⟨l1, l2, e, .skip hm h1, h2⟩
    | line l h =>
      obtain ⟨l1, l2, e, h1, h2⟩ := ih _ h
      exact ⟨l :: l1, l2, by rw [e]; rfl, .line l h1, h2⟩

theorem varsOf_append (ctx : LoadCtx) (a b : List TLine) (vs : List PVar) (h : VarsOf ctx (a ++ b) vs) :
    ∃ v1 v2, vs = v1 ++ v2 ∧ VarsOf ctx a v1 ∧ VarsOf ctx b v2 := by
  induction a generalizing vs with
  | nil => exact ⟨[], vs, rfl, .nil, h⟩
  | cons l a ih =>
    cases h with
    | cons h1 h2 h3 =>
      obtain ⟨v1, v2, e, g1, g2⟩ := ih _ h3
      exact ⟨_, v2, by rw [e, List.append_assoc], .cons h1 h2 g1, g2⟩

theorem groupAttr_dflt_other (ctx : LoadCtx) (pc : Str) (top : Bool) (i : Nat) (a a' : GAttrs) (n v : Str)
    (hn : lower n ≠ c!"default") (h : groupAttr ctx pc top i a n v = .ok a') : a'.dflt = a.dflt := by
  unfold groupAttr at h
  split at h
  · simp only [pure_ok, Except.ok.injEq] at h; subst h; rfl
  split at h
  · simp only [pure_ok, Except.ok.injEq] at h; subst h; split <;> rfl
  split at h
  · simp only [pure_ok, Except.ok.injEq] at h; subst h; split <;> rfl
  split at h
  · rw [bind_ok_iff] at h
    obtain ⟨p, _, h⟩ := h
    simp only [pure_ok, Except.ok.injEq] at h; subst h; rfl
  split at h
  · rw [bind_ok_iff] at h
    obtain ⟨p, _, h⟩ := h
    rw [bind_ok_iff] at h
    obtain ⟨q, _, h⟩ := h
    simp only [pure_ok, Except.ok.injEq] at h; subst h; rfl
  · rw [bind_ok_iff] at h
    obtain ⟨p, _, h⟩ := h
    cases p with
    | nil => cases h
    | cons f fs => simp only [pure_ok, Except.ok.injEq] at h; subst h; rfl

theorem groupAttrs_dflt_none (ctx : LoadCtx) (pc : Str) (top : Bool) (i : Nat) (attrib : Dict Str Str) (a a' : GAttrs)
    (hn : DefaultAttr attrib none) (h : groupAttrs ctx pc top i attrib a = .ok a') : a'.dflt = a.dflt := by
  induction attrib generalizing a with
  | nil => simp only [groupAttrs, pure_ok, Except.ok.injEq] at h; subst h; rfl
  | cons nv rest ih =>
    obtain ⟨n, v⟩ := nv
    simp only [groupAttrs] at h
    rw [bind_ok_iff] at h
    obtain ⟨a1, h1, h2⟩ := h
    simp only [DefaultAttr, List.filter_eq_nil_iff] at hn
    have hnn : lower n ≠ c!"default" := by
      have := hn (n, v) (by simp)
      simpa using this
    have b1 := groupAttr_dflt_other ctx pc top i a a1 n v hnn h1
    have c1 := ih a1 (by simp only [DefaultAttr, List.filter_eq_nil_iff]; exact fun x hx => hn x (by simp [hx])) h2
    exact c1.trans b1

theorem groupAttrs_dflt_some (ctx : LoadCtx) (pc : Str) (top : Bool) (i : Nat) (attrib : Dict Str Str) (a a' : GAttrs) (o : Str)
    (hn : DefaultAttr attrib (some o)) (h : groupAttrs ctx pc top i attrib a = .ok a') :
    a'.dflt = (Dict.get? ctx.vars o).getD (.str o) := by
  induction attrib generalizing a with
  | nil => obtain ⟨k, hk⟩ := hn; cases hk
  | cons nv rest ih =>
    obtain ⟨n, v⟩ := nv
    simp only [groupAttrs] at h
    rw [bind_ok_iff] at h
    obtain ⟨a1, h1, h2⟩ := h
    obtain ⟨k, hk⟩ := hn
    by_cases hnn : lower n = c!"default"
    · rw [List.filter_cons_of_pos (by simpa using hnn)] at hk
      injection hk with e1 e2
      cases e1
      have c1 := groupAttrs_dflt_none ctx pc top i rest a1 a' e2 h2
      unfold groupAttr at h1
      rw [hnn] at h1
      simp only [show (c!"default" = c!"method") = False from by decide, show (c!"default" = c!"input") = False from by decide,
        show (c!"default" = c!"output") = False from by decide, show (c!"default" = c!"name") = False from by decide,
        if_false, if_true, pure_ok, Except.ok.injEq] at h1
      subst h1
      exact c1
    · rw [List.filter_cons_of_neg (by simpa using hnn)] at hk
      exact ih a1 ⟨k, hk⟩ h2

theorem loadChildren_defaults (ctx : LoadCtx) (pc : Str) (xs : List Xml) (a : GAttrs) (hwf : ∀ dd, a.dflt = .dict dd → Dict.WF dd)
    (gid : GId) (index uid : Nat) (g : GState) (hs : Settled a g)
    (ls : List TLine) (hl : LinesAre (xs.map (fun c => (c.tail.map Format.splitlines).getD [])).flatten ls) (vs vs0 : List PVar)
    (hv : VarsOf ctx ls vs) (n : Str) (hn : n ∉ skipDefaults)
    (hg : Dict.get? g.defaults (.s n) = defaultOf a.dflt vs0 n) (gs : List Grp) (g' : GState) (uid' : Nat)
    (h : loadChildren ctx pc a gid index uid xs g = .ok (gs, g', uid')) :
    Dict.get? g'.defaults (.s n) = defaultOf a.dflt (vs0 ++ vs) n := by
  induction xs generalizing index uid g ls vs vs0 gs g' uid' with
  | nil =>
    simp only [List.map_nil, List.flatten_nil] at hl
    cases hl
    cases hv
    simp only [loadChildren, pure_ok, Except.ok.injEq, Prod.mk.injEq] at h
    obtain ⟨_, rfl, _⟩ := h
    rw [hg, List.append_nil]
  | cons x xs ih =>
    simp only [loadChildren] at h
    rw [bind_ok_iff] at h
    obtain ⟨⟨c, u1⟩, hc, h⟩ := h
    rw [bind_ok_iff] at h
    obtain ⟨g1, hg1, h⟩ := h
    rw [bind_ok_iff] at h
    obtain ⟨⟨cs, g2, u2⟩, hcs, h⟩ := h
    simp only [pure_ok, Except.ok.injEq, Prod.mk.injEq] at h
    obtain ⟨_, rfl, _⟩ := h
    simp only [List.map_cons, List.flatten_cons] at hl
    obtain ⟨l1, l2, rfl, hl1, hl2⟩ := linesAre_append _ _ _ hl
    obtain ⟨v1, v2, rfl, hv1, hv2⟩ := varsOf_append ctx _ _ _ hv
    rw [readTail_settled ctx a _ g hs] at hg1
    cases ht : x.tail with
    | none => rw [ht] at hg1; cases hg1
    | some t =>
      rw [ht] at hg1 hl1
      have hs1 := getRegexes_settled ctx a hwf true _ g g1 hg1
      have hd1 := getRegexes_defaults ctx a hwf true t l1 hl1 v1 vs0 hv1 n hn g g1 (by
        rw [hg]; unfold defaultOf
        cases dictDefault a.dflt n <;> simp) hg1
      rw [← List.append_assoc]
      exact ih _ _ g1 hs1 l2 hl2 v2 (vs0 ++ v1) hv2 hd1 _ _ _ hcs

/-- the group's default: a template variable or the text itself -/
def attrDefault (ctx : LoadCtx) (nm : Option Str) : Val :=
  match nm with
  | none => .str c!"_Not_Given_"
  | some o => (Dict.get? ctx.vars o).getD (.str o)

theorem loadGroup_defaults (ctx : LoadCtx) (pc : Str) (hw : ∀ k dd, (k, Val.dict dd) ∈ ctx.vars → Dict.WF dd) (x : Xml)
    (nm : Option Str) (hnm : DefaultAttr x.attrib nm) (ls : List TLine) (hl : LinesAre x.ownLines ls) (vs : List PVar)
    (hv : VarsOf ctx ls vs) (top : Bool) (path : List Str) (parent : Option GId) (index uid : Nat) (l : Loaded) (uid' : Nat)
    (h : loadGroup ctx pc top path parent index uid x = .ok (l, uid')) (n : Str) (hn : n ∉ skipDefaults) :
    ∃ info s nr e hd cs, l.grp = .mk info s nr e hd cs ∧ Dict.get? info.defaults (.s n) =
      defaultOf (attrDefault ctx nm) vs n := by
  cases x with
  | mk t attrib text children tail =>
    simp only [loadGroup] at h
    rw [bind_ok_iff] at h
    obtain ⟨a0, ha, h⟩ := h
    rw [bind_ok_iff] at h
    obtain ⟨g0, hg, h⟩ := h
    rw [bind_ok_iff] at h
    obtain ⟨⟨gs, g, u⟩, hc, h⟩ := h
    simp only [pure_ok, Except.ok.injEq, Prod.mk.injEq] at h
    obtain ⟨rfl, rfl⟩ := h
    refine ⟨_, _, _, _, _, _, rfl, ?_⟩
    have hdf : (anonymousPath top index a0).dflt = attrDefault ctx nm := by
      rw [anonymousPath_dflt]
      cases nm with
      | none => exact groupAttrs_dflt_none ctx pc top index attrib _ a0 hnm ha
      | some o => exact groupAttrs_dflt_some ctx pc top index attrib _ a0 o hnm ha
    have hwf : ∀ dd, (anonymousPath top index a0).dflt = .dict dd → Dict.WF dd := by
      rw [anonymousPath_dflt]
      exact groupAttrs_dflt ctx pc top index attrib _ a0 hw ha (by intro dd e; cases e)
    rw [← hdf]
    simp only [Xml.ownLines] at hl
    obtain ⟨l1, l2, rfl, hl1, hl2⟩ := linesAre_append _ _ _ hl
    obtain ⟨v1, v2, rfl, hv1, hv2⟩ := varsOf_append ctx _ _ _ hv
    cases text with
    | none => cases hg
    | some t =>
      have hs := getRegexes_settled ctx _ hwf false _ _ g0 hg
      have hd := getRegexes_defaults ctx _ hwf false t l1 hl1 v1 [] hv1 n hn _ g0 (by simp [defaultOf, declared]) hg
      exact loadChildren_defaults ctx pc children _ hwf _ _ _ g0 hs l2 hl2 v2 v1 hv2 n hn hd _ _ _ hc

end TTP
