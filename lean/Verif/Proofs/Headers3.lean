import Verif.Proofs.Headers2
/-! # Lemmas: the expression of a line of headings, and its variables -/

namespace TTP
open Py Spec Re

/-- a heading as a column -/
def colOf (h : Str) : Str × Nat := (strip h, h.length)

theorem cols_names (hs : List Str) : (hs.map colOf).map Prod.fst = hs.map strip := by simp [colOf]
theorem cols_widths (hs : List Str) : (hs.map colOf).map Prod.snd = hs.map List.length := by simp [colOf]
theorem widthSum_cols (hs : List Str) : widthSum (hs.map colOf) = (hs.map List.length).sum := by rw [widthSum, cols_widths]

theorem cells_zip (hs : List Str) (z : Str) (x : Str) :
    cellsOf (hs.map colOf) x ++ [(strip z, x.drop (widthSum (hs.map colOf)))] = ((hs ++ [z]).map strip).zip (cutAt (hs.map List.length) x) := by
  have := zip_cutAt (hs.map colOf) [strip z] [] x
  rw [cols_names, cols_widths, List.append_nil] at this
  rw [List.map_append, List.map_cons, List.map_nil, this]
  simp [cutAt]

theorem atIndex_mid {α : Type} (pre post : List α) (m : α) : atIndex (pre ++ m :: post) ((pre.length : Int) + 1 - 1) = .ok m := by
  have e : ((pre.length : Int) + 1 - 1) = pre.length := by omega
  rw [e, atIndex, if_neg (by omega)]
  simp [pure_ok]

theorem atIndex_last {α : Type} (xs : List α) (z : α) : atIndex (xs ++ [z]) (-1) = .ok z := by
  rw [atIndex, if_pos (by decide)]
  simp [pure_ok]

theorem headerRows_oneLine (pre : List Str) (m : Str) (post : List Str) (hm : 1 ≤ m.length) :
    ∃ row, headerRows (pre ++ m :: post) ((pre.length : Int) + 1) = .ok row ∧ row.map Prod.fst = (pre ++ m :: post).map strip ∧
      OneLine (headerRe row) (fun t => if (pre.map List.length).sum < t.length then
        some (((pre ++ m :: post).map strip).zip (cutAt ((pre ++ m :: post).dropLast.map List.length) t)) else none) := by
  have hto : sliceTo (pre ++ m :: post) ((pre.length : Int) + 1 - 1) = pre := by
    have e : ((pre.length : Int) + 1 - 1) = pre.length := by omega
    rw [e, sliceTo, if_neg (by omega)]
    simp
  have hfrom : sliceFrom (pre ++ m :: post) ((pre.length : Int) + 1) = post := by
    have e : ((pre.length : Int) + 1).toNat = pre.length + 1 := by omega
    rw [sliceFrom, if_neg (by omega), e, ← List.drop_drop, List.drop_left]
    rfl
  have hpost : post = [] ∨ ∃ os z, post = os ++ [z] := by
    rcases List.eq_nil_or_concat post with h | ⟨os, z, h⟩
    · exact Or.inl h
    · exact Or.inr ⟨os, z, by rw [h, List.concat_eq_append]⟩
  rcases hpost with rfl | ⟨os, z, rfl⟩
  · refine ⟨pre.map (fun h => (strip h, dots h.length)) ++ [(strip m, Re.plus true (.cls .dot))], ?_, ?_, ?_⟩
    · simp only [headerRows, atIndex_mid, hto, hfrom, ok_bind]
      rw [atIndex_last]
      simp [ok_bind, pure_ok]
    · simp
    · apply headerRe_oneLine
      intro x rest hx
      have := first_row_all (pre.map colOf) (strip m) x rest hx
      rw [cells_zip, widthSum_cols] at this
      rw [List.map_append, List.map_map, show ((fun c : Str × Re => Re.cap c.1 c.2) ∘ fun h : Str => (strip h, dots h.length)) =
        (fun c : Str × Nat => Re.cap c.1 (dots c.2)) ∘ colOf from rfl, ← List.map_map, List.map_cons, List.map_nil, this]
      rw [List.dropLast_concat]
      split <;> simp
  · have hcat : pre ++ m :: (os ++ [z]) = (pre ++ m :: os) ++ [z] := by simp
    refine ⟨pre.map (fun h => (strip h, dots h.length)) ++ ((strip m, .seq (.cls .dot) (upTo (m.length - 1))) ::
      (os.map (fun h => (strip h, upTo h.length)) ++ [(strip z, .star true (.cls .dot))])), ?_, ?_, ?_⟩
    · simp only [headerRows, atIndex_mid, hto, hfrom, ok_bind]
      rw [hcat, atIndex_last]
      have hlen : ¬ ((pre.length : Int) + 1 ≥ ((pre ++ m :: os ++ [z]).length : Nat)) := by simp; omega
      simp only [ok_bind, pure_ok, hlen, if_false, Except.ok.injEq, List.map_append, List.map_cons, List.map_nil]
      rw [← List.append_assoc, List.dropLast_concat]
      simp
    · simp [Function.comp_def]
    · apply headerRe_oneLine
      intro x rest hx
      have := first_row_opt (pre.map colOf) (colOf m) hm (os.map colOf) (strip z) x rest hx
      rw [show pre.map colOf ++ colOf m :: os.map colOf = (pre ++ m :: os).map colOf from by simp, cells_zip, widthSum_cols] at this
      rw [hcat, List.dropLast_concat]
      simp only [List.map_append, List.map_map, List.map_cons, List.map_nil] at this ⊢
      rw [show ((fun c : Str × Re => Re.cap c.1 c.2) ∘ fun h : Str => (strip h, dots h.length)) =
        (fun c : Str × Nat => Re.cap c.1 (dots c.2)) ∘ colOf from rfl,
        show ((fun c : Str × Re => Re.cap c.1 c.2) ∘ fun h : Str => (strip h, upTo h.length)) =
        (fun c : Str × Nat => Re.cap c.1 (upTo c.2)) ∘ colOf from rfl]
      refine Eq.trans this ?_
      split <;> simp

/-! ## The variables -/

/-- names of columns: identifiers without a meaning of their own -/
def ColName (n : Str) : Prop := n ≠ [] ∧ (∀ c ∈ n, isWord c = true) ∧ (∀ c cs, n = c :: cs → isDigit c = false) ∧ n ∉ reserved

/-- what the loader must know about a heading -/
def CtxName (ctx : LoadCtx) (n : Str) : Prop := ctx.eval n = some ([.str n], []) ∧ n ∉ Dict.keys ctx.vars

/-- the functions of the variable of a column -/
def colFns (n : Str) : List FnCall := [⟨c!"strip", [], []⟩, ⟨c!"exclude", [.str n], []⟩]

theorem loadVar_col (ctx : LoadCtx) (n : Str) (hn : ColName n) (hx : CtxName ctx n) (hp : ctx.patterns c!"strip" = none) (d : Dict Key Val) :
    loadVar ctx (.str c!"_Not_Given_") [] (n ++ c!" | strip | exclude(" ++ n ++ c!")") d =
      .ok (⟨n, none, (colFns n).map .fn⟩, d, false) := by
  obtain ⟨h1, h2, h3, h4⟩ := hn
  obtain ⟨h5, h6⟩ := hx
  have hk : n ∉ keywords := h4
  have hs : n ∉ skipDefaults := fun hm => h4 (by
    simp only [skipDefaults, reserved, List.mem_cons, List.not_mem_nil, or_false] at hm ⊢
    grind)
  have hi : n ≠ c!"ignore" := by rintro rfl; exact hs (by decide)
  have hg : groupDefault (.str c!"_Not_Given_") n d = d := by simp [groupDefault]
  have hwc : ∀ c ∈ n, c ≠ '(' ∧ c ≠ '|' ∧ c ≠ '\n' := by
    intro c hc
    have := h2 c hc
    refine ⟨?_, ?_, ?_⟩ <;> (rintro rfl; revert this; decide)
  have ha := getAttributes_pipe ctx [([], ⟨n, none⟩, [' ']), ([' '], ⟨c!"strip", none⟩, [' ']), ([' '], ⟨c!"exclude", some n⟩, [])]
    [⟨n, [], []⟩, ⟨c!"strip", [], []⟩, ⟨c!"exclude", [.str n], []⟩] (by simp) (by
      intro i hi
      simp only [List.mem_cons, List.not_mem_nil, or_false] at hi
      rcases hi with rfl | rfl | rfl
      · exact ⟨by simp, ⟨h1, fun c hc => ⟨word_space c (h2 c hc), (hwc c hc).1, (hwc c hc).2.1⟩, by simp⟩, by simp; decide⟩
      · exact ⟨by simp; decide, ⟨by decide, by decide, by simp⟩, by simp; decide⟩
      · refine ⟨by simp; decide, ⟨by simp, ?_, ?_⟩, by simp⟩
        · show ∀ c ∈ c!"exclude", isSpace c = false ∧ c ≠ '(' ∧ c ≠ '|'
          decide
        intro o ho
        simp only [Option.some.injEq] at ho
        subst ho
        exact ⟨fun h => (hwc _ h).2.1 rfl, fun h => (hwc _ h).2.2 rfl⟩)
    (.cons ⟨rfl, rfl, rfl⟩ (.cons ⟨rfl, rfl, rfl⟩ (.cons ⟨rfl, Or.inr ⟨h1, h5⟩⟩ .nil)))
  have hsrc : pipeSource [([], ⟨n, none⟩, [' ']), ([' '], ⟨c!"strip", none⟩, [' ']), ([' '], ⟨c!"exclude", some n⟩, [])] =
      n ++ c!" | strip | exclude(" ++ n ++ c!")" := by
    simp [pipeSource, join, AttrText.source]
  rw [hsrc] at ha
  have e1 : ∀ k st, extract ctx n [] (k + 1) ⟨c!"strip", [], []⟩ st = .ok { st with attrs := st.attrs ++ [.fn ⟨c!"strip", [], []⟩] } := by
    intro k st
    rw [extract.eq_def]
    simp [hp, argKeywords, pure_ok]
  have e2 : ∀ k st, extract ctx n [] (k + 1) ⟨c!"exclude", [.str n], []⟩ st =
      .ok { st with attrs := st.attrs ++ [.fn ⟨c!"exclude", [.str n], []⟩] } := by
    intro k st
    rw [extract.eq_def]
    simp [argKeywords, argsFromVars, argFromVars, (Dict.get?_eq_none_iff _ _).2 h6, pure_ok, ok_bind]
  have hcd : chainDepth = 999 + 1 := rfl
  unfold loadVar
  simp only [ha, ok_bind, sanitize_word n h2 h3, hs, hk, if_false, hg, extractAll, eachAttr, hcd, e1, e2, List.nil_append, List.append_nil,
    pure_ok, hi, colFns, List.map_cons, List.map_nil, List.cons_append]

theorem varInfo_col (n : Str) (hn : ColName n) : (varInfo ⟨n, none, (colFns n).map .fn⟩).funcs = colFns n := by
  obtain ⟨h1, h2, h3, h4⟩ := hn
  have hs : n ∉ skipDefaults := fun hm => h4 (by
    simp only [skipDefaults, reserved, List.mem_cons, List.not_mem_nil, or_false] at hm ⊢
    grind)
  simp only [skipDefaults, List.mem_cons, List.not_mem_nil, or_false, not_or] at hs
  simp [varInfo, nameAttr, sanitize_word n h2 h3, hs, colFns, addAttr]

theorem subVars_cols (ctx : LoadCtx) (ns : List Str) (hn : ∀ n ∈ ns, ColName n ∧ CtxName ctx n) (hd : ns.Nodup)
    (hp : ctx.patterns c!"strip" = none) (d : Dict Key Val) :
    subVars ctx (.str c!"_Not_Given_") ns d = .ok (ns.map (fun n => (n, (n, colFns n))), d) := by
  induction ns with
  | nil => rfl
  | cons n ns ih =>
    rw [List.nodup_cons] at hd
    obtain ⟨a1, a2⟩ := hn n (by simp)
    simp only [subVars, loadVar_col ctx n a1 a2 hp, ok_bind, ih (fun m hm => hn m (by simp [hm])) hd.2, pure_ok, varInfo_col n a1,
      List.map_cons]
    have hk : Dict.keys (ns.map (fun n => (n, (n, colFns n)))) = ns := by simp [Dict.keys, Function.comp_def]
    rw [Dict.update_of_disjoint _ _ (by unfold Dict.WF; rw [hk]; exact hd.2) (by
      rw [hk]
      intro k hk' he
      simp only [Dict.keys, List.map_cons, List.map_nil, List.mem_singleton] at he
      subst he
      exact hd.1 hk')]
    simp

end TTP
