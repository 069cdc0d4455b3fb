import Verif.Proofs.Headers3
/-! # Lemmas: a group with one line of headings -/

namespace TTP
open Py Spec Re

/-- what stands between the braces -/
def headBody (l : HeadLine) : Str :=
  match l.columns with
  | none => c!" _headers_ "
  | some n => c!" _headers_ | columns(" ++ natStr n ++ c!") "

/-- the attributes of the variable -/
def headAttrs (l : HeadLine) : List FnCall :=
  match l.columns with
  | none => []
  | some n => [⟨c!"columns", [.int n], []⟩]

/-- what the loader must know about the number of columns -/
def CtxCols (ctx : LoadCtx) (l : HeadLine) : Prop := ∀ n, l.columns = some n → ctx.eval (natStr n) = some ([.int n], [])

theorem headBody_attrs (ctx : LoadCtx) (l : HeadLine) (hc : CtxCols ctx l) :
    getAttributes ctx (headBody l) = .ok (⟨c!"_headers_", [], []⟩ :: headAttrs l) := by
  unfold headBody headAttrs
  cases h : l.columns with
  | none =>
    exact getAttributes_name ctx c!"_headers_" (by decide) (by decide)
  | some n =>
    have hd := natStr_digits n
    have hno : ∀ c, isDigit c = false → c ∉ natStr n := natStr_no n
    have ha := getAttributes_pipe ctx [([' '], ⟨c!"_headers_", none⟩, [' ']), ([' '], ⟨c!"columns", some (natStr n)⟩, [' '])]
      [⟨c!"_headers_", [], []⟩, ⟨c!"columns", [.int n], []⟩] (by simp) (by
        intro i hi
        simp only [List.mem_cons, List.not_mem_nil, or_false] at hi
        rcases hi with rfl | rfl
        · exact ⟨by simp; decide, ⟨by decide, by decide, by simp⟩, by simp; decide⟩
        · refine ⟨by simp; decide, ⟨by simp, ?_, ?_⟩, by simp; decide⟩
          · show ∀ c ∈ c!"columns", isSpace c = false ∧ c ≠ '(' ∧ c ≠ '|'
            decide
          intro o ho
          simp only [Option.some.injEq] at ho
          subst ho
          exact ⟨hno _ (by decide), hno _ (by decide)⟩)
      (.cons ⟨rfl, rfl, rfl⟩ (.cons ⟨rfl, Or.inr ⟨natStr_ne_nil n, hc n h⟩⟩ .nil))
    rw [← ha]
    congr 1
    simp [pipeSource, join, AttrText.source]

theorem loadVar_head (ctx : LoadCtx) (l : HeadLine) (hc : CtxCols ctx l) (line : Str) (d : Dict Key Val) :
    loadVar ctx (.str c!"_Not_Given_") line (headBody l) d = .ok (⟨c!"_headers_", none, [.start]⟩, d, false) := by
  have hs : sanitize c!"_headers_" = c!"_headers_" := by decide
  have h1 : c!"_headers_" ∉ skipDefaults := by decide
  have h2 : c!"_headers_" ∈ keywords := by decide
  have hg : groupDefault (.str c!"_Not_Given_") c!"_headers_" d = d := by simp [groupDefault]
  have hcd : chainDepth = 999 + 1 := rfl
  have e1 : ∀ k st, extract ctx c!"_headers_" line (k + 1) ⟨c!"_headers_", [], []⟩ st = .ok { st with attrs := st.attrs ++ [.start] } := by
    intro k st; rw [extract.eq_def]; simp [pure_ok]
  have e2 : ∀ k st, ∀ f ∈ headAttrs l, extract ctx c!"_headers_" line (k + 1) f st = .ok st := by
    intro k st f hf
    unfold headAttrs at hf
    cases h : l.columns with
    | none => rw [h] at hf; cases hf
    | some n =>
      rw [h] at hf
      simp only [List.mem_singleton] at hf
      subst hf
      rw [extract.eq_def]; simp [pure_ok]
  have e3 : ∀ fs : List FnCall, (∀ f ∈ fs, f ∈ headAttrs l) → ∀ st, eachAttr (extract ctx c!"_headers_" line chainDepth) fs st = .ok st := by
    intro fs
    induction fs with
    | nil => intro _ st; rfl
    | cons f fs ih =>
      intro h st
      rw [eachAttr, hcd, e2 _ _ f (h f (by simp))]
      simp only [ok_bind]
      exact ih (fun g hg => h g (by simp [hg])) st
  have h3 : c!"_headers_" ≠ c!"ignore" := by decide
  unfold loadVar
  simp only [headBody_attrs ctx l hc, ok_bind, hs, h1, h2, if_false, if_true, hg, extractAll, List.cons_append, List.nil_append, eachAttr, h3,
    pure_ok]
  rw [hcd, e1]
  simp only [ok_bind, List.nil_append]
  rw [← hcd, e3 _ (fun f h => h)]
  rfl

/-- the line in pieces -/
def headTLine (l : HeadLine) : TLine := ⟨l.indent, [.text (l.cols.map colText).flatten, .var (headBody l)], []⟩

theorem headTLine_source (l : HeadLine) : (headTLine l).source = l.source := by
  unfold headTLine TLine.source HeadLine.source headBody
  have : l.cols.map colText = l.cols.map (fun c => c.1 ++ c.2) := rfl
  rw [this]
  cases l.columns <;> simp [Piece.source]

theorem natStr_noSpecial (n : Nat) : '}' ∉ natStr n := natStr_no n _ (by decide)

theorem col_facts (l : HeadLine) (h : l.OK) (c : Str × Str) (hc : c ∈ l.cols) :
    c.1 ≠ [] ∧ (∀ d ∈ c.1, isWord d = true) ∧ (∀ d cs, c.1 = d :: cs → isDigit d = false) ∧ c.1 ∉ reserved := by
  have hm : c.1 ∈ l.names := List.mem_map_of_mem hc
  obtain ⟨a1, a2, a3⟩ := h.ident _ hm
  exact ⟨a1, a2, a3, h.free _ hm⟩

theorem headTLine_ok (l : HeadLine) (h : l.OK) : (headTLine l).OK := by
  have hsrc : ((headTLine l).pieces.map Piece.source).flatten = (l.cols.map colText).flatten ++ (c!"{{" ++ headBody l ++ c!"}}") := by
    simp [headTLine, Piece.source]
  obtain ⟨a, as, ec⟩ := List.exists_cons_of_ne_nil h.some
  obtain ⟨a1, a2, _, _⟩ := col_facts l h a (by rw [ec]; simp)
  obtain ⟨c, t, e1⟩ := List.exists_cons_of_ne_nil a1
  have hcw : isWord c = true := a2 c (by rw [e1]; simp)
  refine ⟨fun c hc => blank_space c (h.indent c hc), by simp [headTLine], ?_, ?_, by simp [headTLine, TLine.contents], ?_, ?_, ?_⟩
  · intro u hu hm
    simp only [headTLine, List.mem_cons, Piece.text.injEq, List.not_mem_nil, or_false, reduceCtorEq] at hu
    subst hu
    obtain ⟨w, hw, hm⟩ := List.mem_flatten.1 hm
    obtain ⟨x, hx, rfl⟩ := List.mem_map.1 hw
    rcases List.mem_append.1 hm with hm | hm
    · have := (col_facts l h x hx).2.1 _ hm; revert this; decide
    · have := blank_space _ (h.gaps x hx _ hm); revert this; decide
  · intro b hb
    simp only [headTLine, List.mem_cons, reduceCtorEq, Piece.var.injEq, List.not_mem_nil, or_false, false_or] at hb
    subst hb
    unfold headBody
    cases l.columns with
    | none => decide
    | some n =>
      refine ⟨by simp, ?_⟩
      simp only [List.mem_append, not_or]
      exact ⟨⟨by decide, natStr_noSpecial n⟩, by decide⟩
  · refine ⟨c, t ++ a.2 ++ (as.map colText).flatten ++ (c!"{{" ++ headBody l ++ c!"}}"), ?_, word_space c hcw⟩
    rw [hsrc, ec, List.map_cons, List.flatten_cons, colText, e1]
    simp
  · refine ⟨(l.cols.map colText).flatten ++ (c!"{{" ++ headBody l ++ c!"}"), '}', ?_, by decide⟩
    rw [hsrc]
    simp
  · rintro ⟨r, hr⟩
    rw [hsrc, ec, List.map_cons, List.flatten_cons, colText, e1] at hr
    simp only [List.cons_append, List.cons.injEq] at hr
    rw [← hr.1] at hcw
    revert hcw; decide

theorem textBefore_chars (s : Str) (es : List (Elem Str)) : textBefore (s.map .ch ++ es) = s ++ textBefore es := by
  induction s with
  | nil => rfl
  | cons c s ih => simp [textBefore, ih]

/-- the matches of a line of headings -/
def headFit (l : HeadLine) (t : Str) : Option Caps :=
  if (l.widths.take (l.mandatory - 1)).sum < t.length then some (l.names.zip (cutAt l.widths t)) else none

/-- the variables of the line -/
def headVars (l : HeadLine) : Dict Str (Str × List FnCall) :=
  (c!"_headers_", (c!"_headers_", [])) :: l.names.map (fun n => (n, (n, colFns n)))

theorem columnsOf_head (l : HeadLine) (h : l.OK) :
    ∃ k, k < l.cols.length ∧ l.mandatory = k + 1 ∧ columnsOf l.cols.length (headAttrs l) ((l.cols.length : Int) - 2) = .ok ((k : Int) + 1) := by
  have h0 : 0 < l.cols.length := List.length_pos_iff.2 h.some
  unfold HeadLine.mandatory headAttrs
  cases hc : l.columns with
  | none =>
    have := h.three hc
    refine ⟨l.cols.length - 3, by omega, by simp only; omega, ?_⟩
    simp only [columnsOf, pure_ok, Except.ok.injEq]
    omega
  | some n =>
    refine ⟨min (max 1 n) l.cols.length - 1, by omega, by simp only; omega, ?_⟩
    simp only [columnsOf, if_true, pure_ok, Except.ok.injEq]
    omega

theorem loadLine_head (ctx : LoadCtx) (l : HeadLine) (h : l.OK) (hcc : CtxCols ctx l) (hcn : ∀ n ∈ l.names, CtxName ctx n)
    (hp : ctx.patterns c!"strip" = none) (d : Dict Key Val) :
    ∃ r, OneLine r (headFit l) ∧ loadLine ctx (.str c!"_Not_Given_") l.source d = .ok (some ⟨r, headVars l, .start, false⟩, d) := by
  obtain ⟨e1, e2, e3, e4, _⟩ := elems_line (headTLine l) (headTLine_ok l h)
  rw [headTLine_source] at e1 e2 e3 e4
  obtain ⟨cs, n, g, ecols⟩ := HeadLine_split l h
  obtain ⟨n1, n2, n3, n4⟩ := col_facts l h (n, g) (by rw [ecols]; simp)
  simp only at n1 n2 n3 n4
  have hns := word_nospace n n2
  have hg : ∀ c ∈ g, isSpace c = true := fun c hc => blank_space c (h.gaps (n, g) (by rw [ecols]; simp) c hc)
  have hcs : ∀ c ∈ cs, c.1 ≠ [] ∧ (∀ d ∈ c.1, isSpace d = false) ∧ c.2 ≠ [] ∧ ∀ d ∈ c.2, isSpace d = true := by
    intro c hc
    obtain ⟨a1, a2, _, _⟩ := col_facts l h c (by rw [ecols]; simp [hc])
    refine ⟨a1, word_nospace _ a2, h.apart c (by rw [ecols, List.dropLast_concat]; exact hc), ?_⟩
    exact fun d hd => blank_space d (h.gaps c (by rw [ecols]; simp [hc]) d hd)
  -- the variable
  have hvars : elemVars (elems (lstrip (rstrip l.source))) = [headBody l] := by
    rw [e3]
    simp only [headTLine, pieceEls, elemVars_append, elemVars_chars, elemVars, List.nil_append]
  have hhv : headersVar ctx (elems (lstrip (rstrip l.source))) = some (headBody l, headAttrs l) := by
    unfold headersVar
    rw [hvars]
    simp only [headBody_attrs ctx l hcc]
    rw [if_pos (by decide)]
  -- the text before it
  have hbefore : rstrip (textBefore (elems (rstrip l.source))) = l.indent ++ ((cs.map colText).flatten ++ n) := by
    have : textBefore (elems (rstrip l.source)) = l.indent ++ (cs.map colText).flatten ++ n ++ g := by
      rw [e4]
      simp only [headTLine, pieceEls]
      rw [textBefore_chars, textBefore_chars, ecols]
      simp [textBefore, colText]
    obtain ⟨_, t, c, en, hc⟩ := ends_of_word n n1 hns
    rw [this, en]
    have := rstrip_append (l.indent ++ (cs.map colText).flatten ++ t) c g hc hg
    simpa using this
  have hheads := headings_cols l.indent (fun c hc => blank_space c (h.indent c hc)) cs n n1 hns hcs
  -- the first heading with the indent
  have hind : headingIndent (l.indent ++ ((cs.map colText).flatten ++ n)) = blankWidth l.indent := by
    have : ∃ c s, (cs.map colText).flatten ++ n = c :: s ∧ isSpace c = false := by
      cases cs with
      | nil =>
        obtain ⟨⟨c, t, en, hc⟩, _⟩ := ends_of_word n n1 hns
        exact ⟨c, t, by simp [en], hc⟩
      | cons a cs =>
        obtain ⟨a1, a2, _⟩ := hcs a (by simp)
        obtain ⟨⟨c, t, en, hc⟩, _⟩ := ends_of_word a.1 a1 a2
        exact ⟨c, _, by rw [List.map_cons, List.flatten_cons, colText, en]; simp; rfl, hc⟩
    obtain ⟨c, s, ec, hc⟩ := this
    rw [ec]
    exact headingIndent_cols l.indent h.indent c s hc
  have hlen : (cs.map colText ++ [n]).length = l.cols.length := by rw [ecols]; simp
  obtain ⟨hd, tl, ehd⟩ : ∃ hd tl, cs.map colText ++ [n] = hd :: tl := List.exists_cons_of_ne_nil (by simp)
  obtain ⟨all, eall⟩ : ∃ all, all = (List.replicate (blankWidth l.indent) ' ' ++ hd) :: tl := ⟨_, rfl⟩
  have hrep : ∀ c ∈ List.replicate (blankWidth l.indent) ' ', isSpace c = true := by
    intro c hc
    rw [List.mem_replicate] at hc
    rw [hc.2]; decide
  have hstrip : all.map strip = l.names := by
    have hcol : ∀ c ∈ cs, ∀ b, (∀ d ∈ b, isSpace d = true) → strip (b ++ colText c) = c.1 := by
      intro c hc b hb
      obtain ⟨a1, a2, _, a4⟩ := hcs c hc
      obtain ⟨p1, p2⟩ := ends_of_word c.1 a1 a2
      have := strip_of_ends c.1 b c.2 hb a4 p1 p2
      simpa [colText] using this
    have hlast : ∀ b, (∀ d ∈ b, isSpace d = true) → strip (b ++ n) = n := by
      intro b hb
      obtain ⟨p1, p2⟩ := ends_of_word n n1 hns
      have := strip_of_ends n b [] hb (by simp) p1 p2
      simpa using this
    rw [eall, HeadLine.names, ecols]
    cases cs with
    | nil =>
      simp only [List.map_nil, List.nil_append, List.cons.injEq] at ehd
      obtain ⟨rfl, rfl⟩ := ehd
      simp [hlast _ hrep]
    | cons a cs =>
      simp only [List.map_cons, List.cons_append, List.cons.injEq] at ehd
      obtain ⟨rfl, rfl⟩ := ehd
      simp only [List.map_cons, List.map_append, List.map_nil, List.map_map, List.cons_append, hcol a (by simp) _ hrep]
      have := hlast [] (by simp)
      rw [List.nil_append] at this
      rw [this]
      congr 2
      apply List.map_congr_left
      intro c hc
      have := hcol c (by simp [hc]) [] (by simp)
      simpa using this
  have hwidths : all.dropLast.map List.length = l.widths := by
    rw [eall, HeadLine.widths, ecols, List.dropLast_concat]
    cases cs with
    | nil =>
      simp only [List.map_nil, List.nil_append, List.cons.injEq] at ehd
      obtain ⟨rfl, rfl⟩ := ehd
      rfl
    | cons a cs =>
      simp only [List.map_cons, List.cons_append, List.cons.injEq] at ehd
      obtain ⟨rfl, rfl⟩ := ehd
      rw [← List.cons_append, List.dropLast_concat]
      simp [colText, Function.comp_def, Nat.add_assoc]
  have hall : all.length = l.cols.length := by
    rw [eall, ← hlen, ehd]; rfl
  -- the number of mandatory columns
  obtain ⟨k, hk, hmand, hcols⟩ := columnsOf_head l h
  have hsplit : all = all.take k ++ all[k]'(by omega) :: all.drop (k + 1) := by
    rw [List.getElem_cons_drop, List.take_append_drop]
  have hm1 : 1 ≤ (all[k]'(by omega)).length := by
    rcases Nat.eq_zero_or_pos (all[k]'(by omega)).length with h0 | h0
    · exfalso
      have hnil := List.eq_nil_of_length_eq_zero h0
      have : [] ∈ l.names := by
        rw [← hstrip]
        exact List.mem_map.2 ⟨all[k]'(by omega), List.getElem_mem _, by rw [hnil]; rfl⟩
      exact (h.ident [] this).1 rfl
    · exact h0
  obtain ⟨row, hrow, hnames, hone⟩ := headerRows_oneLine (all.take k) (all[k]'(by omega)) (all.drop (k + 1)) hm1
  rw [← hsplit] at hrow hnames hone
  have hkl : (all.take k).length = k := by rw [List.length_take]; omega
  rw [hkl] at hrow
  have hfit : (fun t : Str => if ((all.take k).map List.length).sum < t.length then
      some ((all.map strip).zip (cutAt (all.dropLast.map List.length) t)) else none) = headFit l := by
    funext t
    have : (all.take k).map List.length = l.widths.take (l.mandatory - 1) := by
      rw [hmand, Nat.add_sub_cancel, ← hwidths, List.map_take]
      rw [List.map_dropLast, List.dropLast_eq_take, List.take_take]
      congr 1
      rw [List.length_map, hall]
      omega
    rw [this, hstrip, hwidths]
    rfl
  rw [hfit] at hone
  -- the variables of the columns
  have hsub := subVars_cols ctx l.names (fun n hn => ⟨by
    obtain ⟨a1, a2, a3⟩ := h.ident n hn
    exact ⟨a1, a2, a3, h.free n hn⟩, hcn n hn⟩) h.nodup hp d
  have hok : groupNamesOk (row.map (·.1)) = true := by
    have : row.map (·.1) = l.names := by rw [← hstrip]; exact hnames
    rw [this, groupNamesOk]
    simp only [h.nodup, decide_true, Bool.true_and, List.all_eq_true]
    intro n hn
    obtain ⟨a1, a2, a3⟩ := h.ident n hn
    obtain ⟨c, t, rfl⟩ := List.exists_cons_of_ne_nil a1
    simp only [Bool.and_eq_true, Bool.not_eq_true', List.all_eq_true]
    exact ⟨a3 c t rfl, a2⟩
  refine ⟨headerRe row, hone, ?_⟩
  have hv0 : lineVars [varInfo ⟨c!"_headers_", none, [.start]⟩] = [(c!"_headers_", (c!"_headers_", []))] := by decide
  have ha0 : lineAction [varInfo ⟨c!"_headers_", none, [.start]⟩] = .start := by decide
  have hi0 : (varInfo ⟨c!"_headers_", none, [.start]⟩).isLine = false := by decide
  have hupd : Dict.update [(c!"_headers_", (c!"_headers_", ([] : List FnCall)))] (l.names.map (fun n => (n, (n, colFns n)))) = headVars l := by
    have hk : Dict.keys (l.names.map (fun n => (n, (n, colFns n)))) = l.names := by simp [Dict.keys, Function.comp_def]
    rw [Dict.update_of_disjoint _ _ (by unfold Dict.WF; rw [hk]; exact h.nodup) (by
      rw [hk]
      intro k hk' he
      simp only [Dict.keys, List.map_cons, List.map_nil, List.mem_singleton] at he
      subst he
      exact h.free _ hk' (by decide))]
    rfl
  unfold loadLine
  simp only [hhv]
  unfold loadHeaders
  simp only [loadVar_head ctx l hcc, ok_bind, Bool.false_eq_true, if_false, hbefore, hheads, hlen, hcols, hind]
  rw [ehd]
  simp only [← eall, hrow, ok_bind, hstrip, hsub, hok, if_true, pure_ok, hv0, ha0, hi0, hupd]

end TTP
