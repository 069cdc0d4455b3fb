import Verif.Proofs.Headers4
import Verif.Props.Whole
import Verif.Props.Match
/-!
# C99: tables under a line of headings
-/

namespace Props
open Py Spec TTP

/-- the two functions that are applied to every cell do what they say: `strip` takes the white space away, `exclude(n)` fails for
texts that contain `n` -/
structure TableFns (mf : MatchFns) : Prop where
  strip : ∀ env s, mf ⟨c!"strip", [], []⟩ env (.str s) = .ok (env, .str (strip s), .nothing)
  fails : ∀ env n s, n <:+: s → mf ⟨c!"exclude", [.str n], []⟩ env (.str s) = .ok (env, .str s, .no)
  passes : ∀ env n s, ¬ n <:+: s → mf ⟨c!"exclude", [.str n], []⟩ env (.str s) = .ok (env, .str s, .yes)

/-- what is known where the template is loaded: headings as arguments stand for themselves and are not names of template variables,
the number of columns is read as a number, there is no pattern `strip` -/
structure TableCtx (ctx : LoadCtx) (l : HeadLine) : Prop where
  name : ∀ n ∈ l.names, ctx.eval n = some ([.str n], []) ∧ n ∉ Dict.keys ctx.vars
  columns : ∀ n, l.columns = some n → ctx.eval (natStr n) = some ([.int n], [])
  strip : ctx.patterns c!"strip" = none

/-! ## Lemmas -/

/-- the group that is made of the line -/
def tableGrp (name : Str) (l : HeadLine) (r : Re) : Grp := .mk (tplInfo name) [⟨r, headVars l, .start, false⟩] [] [] false []

theorem head_noBreak (l : HeadLine) (h : l.OK) : ∀ c ∈ l.source, Format.isBreak c = false := by
  intro c hc
  have hw : ∀ c, isWord c = true → Format.isBreak c = false := fun c h => nspace_noBreak c (word_space c h)
  rw [← headTLine_source] at hc
  simp only [TLine.source, headTLine, List.map_cons, List.map_nil, Piece.source, List.flatten_cons, List.flatten_nil, List.append_nil,
    List.mem_append] at hc
  rcases hc with hc | hc | hc
  · exact blank_noBreak c (h.indent c hc)
  · obtain ⟨w, hw', hm⟩ := List.mem_flatten.1 hc
    obtain ⟨x, hx, rfl⟩ := List.mem_map.1 hw'
    rcases List.mem_append.1 hm with hm | hm
    · exact hw c ((col_facts l h x hx).2.1 _ hm)
    · exact blank_noBreak c (h.gaps x hx _ hm)
  · rcases hc with (hc | hc) | hc
    · revert c; decide
    · unfold headBody at hc
      cases hcol : l.columns with
      | none => rw [hcol] at hc; revert c; decide
      | some n =>
        rw [hcol] at hc
        simp only [List.mem_append] at hc
        rcases hc with (hc | hc) | hc
        · revert c; decide
        · have := List.all_eq_true.1 (natStr_digits n) c hc
          cases hb : Format.isBreak c with
          | false => rfl
          | true =>
            have hs := isBreak_space c hb
            simp only [isDigit, Bool.and_eq_true, decide_eq_true_eq] at this
            simp only [isSpace, Bool.or_eq_true, Bool.and_eq_true, decide_eq_true_eq, beq_iff_eq] at hs
            have e0 : ('0' : Char).toNat = 48 := rfl
            have e9 : ('9' : Char).toNat = 57 := rfl
            have h1 : ('0' : Char).toNat ≤ c.toNat := this.1
            have h2 : c.toNat ≤ ('9' : Char).toNat := this.2
            omega
        · revert c; decide
    · revert c; decide

theorem loadGroups_table (ctx : LoadCtx) (name : Str) (hname : GroupName name) (l : HeadLine) (h : l.OK) (hctx : TableCtx ctx l)
    (tail : Option Str) : ∃ r, OneLine r (headFit l) ∧ loadGroups ctx c!"." 0 0 [tableXml (name ++ c!"*") l tail] =
      .ok [⟨0, name ++ c!"*", [], tableGrp (name ++ c!"*") l r⟩] := by
  obtain ⟨hn1, _, _, hn3⟩ := hname
  have hne : name ++ c!"*" ≠ [] := by simp
  have hdot : '.' ∉ name ++ c!"*" := by
    simp only [List.mem_append, List.mem_singleton, not_or]
    exact ⟨fun h => (hn3 _ h).1 rfl, by decide⟩
  have hsl : ¬ c!"/" <+: name ++ c!"*" := by
    rintro ⟨r, e⟩
    obtain ⟨c, cs, ec⟩ := List.exists_cons_of_ne_nil hn1
    rw [ec] at e
    simp only [List.cons_append, List.cons.injEq] at e
    exact (hn3 c (by simp [ec])).2.2.2 e.1.symm
  generalize name ++ c!"*" = gname at *
  obtain ⟨r, hr, hl⟩ := loadLine_head ctx l h hctx.columns hctx.name hctx.strip []
  refine ⟨r, hr, ?_⟩
  have hskip : lineSkipped [] = true := by decide
  have hns : lineSkipped l.source = false := by
    have := (elems_line (headTLine l) (headTLine_ok l h)).2.2.2.2
    rwa [headTLine_source] at this
  have hsplit : Format.splitlines ('\n' :: (l.source ++ c!"\n")) = [[], l.source] := by
    have h1 := Format.splitlinesAux_break [] [] (l.source ++ c!"\n") (by simp)
    have h2 := Format.splitlinesAux_break [] l.source [] (head_noBreak l h)
    simp only [List.nil_append] at h1 h2
    unfold Format.splitlines
    rw [h1, h2]
    rfl
  have hanon : anonymousPath true 0 ⟨[gname], gname, some (gname, 0), .str c!"_Not_Given_", false, [], [], []⟩ =
      ⟨[gname], gname, some (gname, 0), .str c!"_Not_Given_", false, [], [], []⟩ := by
    simp [anonymousPath, hne]
  have hreg : getRegexes ctx ⟨[gname], gname, some (gname, 0), .str c!"_Not_Given_", false, [], [], []⟩ false
      (some ('\n' :: (l.source ++ c!"\n"))) ⟨⟨[], [], []⟩, [], false⟩ = .ok ⟨⟨[⟨r, headVars l, .start, false⟩], [], []⟩, [], false⟩ := by
    simp only [getRegexes, hsplit, loadLines, hskip, if_true, hns, Bool.false_eq_true, if_false, hl, ok_bind, pure_ok, Option.toList_some,
      List.append_nil, classify]
    simp [startDefault, Dict.has, Dict.get?, Action.isStart]
  simp only [loadGroups, tableXml, loadGroup, groupAttrs_name ctx gname hdot hsl, ok_bind, hanon, hreg, loadChildren, pure_ok]
  rfl

theorem checkVars_table (mf : MatchFns) (hmf : TableFns mf) (vars : Dict Str (Str × List FnCall)) (env : Env) (caps : List (Str × Str))
    (hv : ∀ n ∈ caps.map Prod.fst, Dict.get? vars n = some (n, colFns n)) (hn : (caps.map Prod.fst).Nodup) (acc : Dict Key Val)
    (hacc : ∀ n ∈ caps.map Prod.fst, Key.s n ∉ Dict.keys acc) :
    ((∀ c ∈ caps, ¬ c.1 <:+: Py.strip c.2) →
      checkVars mf vars caps env acc = .ok (env, some (acc ++ recOf (caps.map (fun c => (c.1, Py.strip c.2)))))) ∧
    (¬ (∀ c ∈ caps, ¬ c.1 <:+: Py.strip c.2) → checkVars mf vars caps env acc = .ok (env, none)) := by
  induction caps generalizing acc with
  | nil => exact ⟨fun _ => by simp [checkVars, recOf, pure_ok], fun h => absurd (by simp) h⟩
  | cons c caps ih =>
    obtain ⟨n, t⟩ := c
    simp only [List.map_cons, List.nodup_cons] at hn
    have hset : Dict.set acc (.s n) (.str (Py.strip t)) = acc ++ [(.s n, .str (Py.strip t))] := Dict.set_of_not_mem _ _ _ (hacc n (by simp))
    by_cases hin : n <:+: Py.strip t
    · refine ⟨fun h => absurd hin (h (n, t) (by simp)), fun _ => ?_⟩
      simp only [checkVars, hv n (by simp), colFns, runMatchFns, hmf.strip, hmf.fails env n _ hin, ok_bind, reduceCtorEq, if_false, if_true,
        pure_ok]
    · have hacc' : ∀ m ∈ caps.map Prod.fst, Key.s m ∉ Dict.keys (acc ++ [(Key.s n, Val.str (Py.strip t))]) := by
        intro m hm hk
        simp only [Dict.keys, List.map_append, List.map_cons, List.map_nil, List.mem_append, List.mem_singleton, Key.s.injEq] at hk
        rcases hk with hk | rfl
        · exact hacc m (by simp only [List.map_cons, List.mem_cons]; exact Or.inr hm) hk
        · exact hn.1 hm
      obtain ⟨i1, i2⟩ := ih (fun m hm => hv m (by simp only [List.map_cons, List.mem_cons]; exact Or.inr hm)) hn.2 _ hacc'
      have hstep : checkVars mf vars ((n, t) :: caps) env acc = checkVars mf vars caps env (acc ++ [(Key.s n, Val.str (Py.strip t))]) := by
        simp only [checkVars, hv n (by simp), colFns, runMatchFns, hmf.strip, hmf.passes env n _ hin, ok_bind, reduceCtorEq, if_false,
          pure_ok, addFlag, Option.getD_none, hset]
        rfl
      rw [hstep]
      refine ⟨fun h => ?_, fun h => ?_⟩
      · rw [i1 (fun c hc => h c (by simp [hc]))]
        simp [recOf]
      · apply i2
        intro hall
        apply h
        intro c hc
        rcases List.mem_cons.1 hc with rfl | hc
        · exact hin
        · exact hall c hc

theorem cutAt_length (ws : List Nat) (t : Str) : (cutAt ws t).length = ws.length + 1 := by
  induction ws generalizing t with
  | nil => rfl
  | cons w ws ih => simp [cutAt, ih]

theorem widths_length (l : HeadLine) (h : l.OK) : l.widths.length + 1 = l.names.length := by
  have h0 : 0 < l.cols.length := List.length_pos_iff.2 h.some
  have h1 : l.cols.dropLast.length = l.cols.length - 1 := List.length_dropLast
  unfold HeadLine.widths HeadLine.names
  cases hd : l.cols.dropLast with
  | nil => rw [hd] at h1; simp at h1 ⊢; omega
  | cons c cs => rw [hd] at h1; simp at h1 ⊢; omega

open Classical in
/-- the values of the cells, if the line is a row -/
noncomputable def rowRec (caps : List (Str × Str)) : Option (Dict Key Val) :=
  if ∀ c ∈ caps, ¬ c.1 <:+: Py.strip c.2 then some (recOf (caps.map (fun c => (c.1, Py.strip c.2)))) else none

theorem cells_eq (l : HeadLine) (t : Str) : (l.names.zip (cutAt l.widths t)).map (fun c => (c.1, Py.strip c.2)) = l.cells t := by
  rw [HeadLine.cells, ← List.map_id' l.names, List.zip_map, List.map_id']
  rfl

theorem caps_names (l : HeadLine) (h : l.OK) (t : Str) : (l.names.zip (cutAt l.widths t)).map Prod.fst = l.names := by
  rw [List.map_fst_zip]
  rw [cutAt_length, widths_length l h]
  exact Nat.le_refl _

theorem checkMatch_table (mf : MatchFns) (hmf : TableFns mf) (l : HeadLine) (h : l.OK) (r : Re) (t : Str) (c : Re.Caps) (p : Nat) (env : Env)
    (hf : headFit l t = some c) : checkMatch mf ⟨r, headVars l, .start, false⟩ ⟨p, '\n' :: t, c⟩ env = .ok (env, rowRec c) := by
  unfold headFit at hf
  split at hf
  case isFalse => cases hf
  simp only [Option.some.injEq] at hf
  subst hf
  have hcn := caps_names l h t
  have hne : (l.names.zip (cutAt l.widths t)).isEmpty = false := by
    cases hz : l.names.zip (cutAt l.widths t) with
    | cons => rfl
    | nil =>
      rw [hz] at hcn
      have h0 : 0 < l.names.length := by rw [HeadLine.names, List.length_map]; exact List.length_pos_iff.2 h.some
      rw [← hcn] at h0
      simp at h0
  have hv : ∀ n ∈ l.names, Dict.get? (headVars l) n = some (n, colFns n) := by
    intro n hn
    have hwf : Dict.WF (headVars l) := by
      unfold Dict.WF headVars Dict.keys
      simp only [List.map_cons, List.map_map, List.nodup_cons]
      refine ⟨?_, by simpa [Function.comp_def] using h.nodup⟩
      simp only [Function.comp_def, List.map_id']
      exact fun hm => h.free _ hm (by decide)
    apply Dict.get?_of_mem _ _ _ hwf
    unfold headVars
    exact List.mem_cons_of_mem _ (List.mem_map.2 ⟨n, hn, rfl⟩)
  obtain ⟨i1, i2⟩ := checkVars_table mf hmf (headVars l) env (l.names.zip (cutAt l.widths t)) (by rw [hcn]; exact hv) (by rw [hcn]; exact h.nodup) []
    (by simp [Dict.keys])
  unfold checkMatch matchValues
  simp only [hne, Bool.false_eq_true, if_false]
  unfold rowRec
  split
  · rename_i hc; rw [i1 hc]; simp
  · rename_i hc; rw [i2 hc]

open Classical in
theorem segments_rows (l : HeadLine) (lines : List Str) (env : Env) (info : GInfo) (R : LineRx) (hR : R.action = .start) :
    (segments (((lines.filterMap (headFit l)).map (fun c => toHit env ⟨info, R, rowRec c⟩)).map evOf)) =
      ((lines.filter (fun t => decide (l.IsRow t))).map (fun t => (recOf (l.cells t), []))) := by
  have hlines : ∀ hs : List TTP.Hit, (∀ h ∈ hs, h.1.action = .start) → linesOf (hs.map evOf) = [] := by
    intro hs h
    cases hs with
    | nil => rfl
    | cons a hs =>
      simp only [List.map_cons]
      unfold evOf
      have := h a (by simp)
      cases a.2 with
      | none => rfl
      | some d => simp only [this]; rfl
  induction lines with
  | nil => rfl
  | cons t ts ih =>
    by_cases hw : (l.widths.take (l.mandatory - 1)).sum < t.length
    · have hf : headFit l t = some (l.names.zip (cutAt l.widths t)) := by unfold headFit; rw [if_pos hw]
      rw [List.filterMap_cons_some hf, List.map_cons, List.map_cons]
      have hcell : (∀ c ∈ l.names.zip (cutAt l.widths t), ¬ c.1 <:+: Py.strip c.2) ↔ ∀ c ∈ l.cells t, ¬ c.1 <:+: c.2 := by
        rw [← cells_eq]
        simp only [List.forall_mem_map]
      by_cases hr : ∀ c ∈ l.cells t, ¬ c.1 <:+: c.2
      · have hrow : l.IsRow t := ⟨hw, hr⟩
        rw [List.filter_cons_of_pos (by simpa using hrow), List.map_cons]
        have hev : evOf (toHit env ⟨info, R, rowRec (l.names.zip (cutAt l.widths t))⟩) = .start (recOf (l.cells t)) := by
          unfold rowRec
          rw [if_pos (hcell.2 hr), cells_eq]
          simp [evOf, toHit, hR]
        rw [hev, segments, ih, hlines]
        intro h hh
        obtain ⟨c, _, rfl⟩ := List.mem_map.1 hh
        exact hR
      · have hrow : ¬ l.IsRow t := fun h => hr h.2
        rw [List.filter_cons_of_neg (by simpa using hrow)]
        have hev : evOf (toHit env ⟨info, R, rowRec (l.names.zip (cutAt l.widths t))⟩) = .badStart := by
          unfold rowRec
          rw [if_neg (fun h => hr (hcell.1 h))]
          rfl
        rw [hev, segments, ih]
    · have hf : headFit l t = none := by unfold headFit; rw [if_neg hw]
      have hrow : ¬ l.IsRow t := fun h => hw h.1
      rw [List.filterMap_cons_none hf, List.filter_cons_of_neg (by simpa using hrow), ih]

theorem sameDict_rows {α : Type} (f : α → Dict Key Val) (rows : List α) (recs : List (Dict Key Val))
    (h : All2 (IsRecordOf []) (rows.map (fun t => (f t, []))) recs) : All2 SameDict (rows.map f) recs := by
  induction rows generalizing recs with
  | nil => cases h; exact .nil
  | cons t rows ih =>
    cases h with
    | cons hab hrest =>
      refine .cons ?_ (ih _ hrest)
      intro k
      have := hab k
      simp only [List.cons_append, List.nil_append, List.findSome?_cons, List.findSome?_nil, Dict.get?] at this
      rw [this]
      cases Dict.get? (f t) k <;> rfl

/-! ## C99 -/

open Classical in
/-- C99. A template with one group that has a line of headings: loading it succeeds, and every text gives the list of its rows, in
order. A text line is a row if it reaches into the last mandatory column and no cell contains the name of its own column; cells are
cut at the places where the headings begin, whatever they contain; the cells of optional columns may be missing. -/
theorem C99_table (ctx : LoadCtx) (mf : MatchFns) (hmf : TableFns mf) (gf : GroupFns) (toInt : Bool) (name : Str) (hname : GroupName name)
    (l : HeadLine) (h : l.OK) (hctx : TableCtx ctx l) (tail : Option Str) :
    ∃ gs, loadGroups ctx c!"." 0 0 [tableXml (name ++ c!"*") l tail] = .ok gs ∧
      ∀ d env, ∃ v, TableMeans name toInt l d v ∧
        (parseText mf gf toInt [] (gs.map (·.grp)) (dataText d) env (.dict [])).map (·.results) = .ok v := by
  obtain ⟨r, hr, hload⟩ := loadGroups_table ctx name hname l h hctx tail
  refine ⟨_, hload, ?_⟩
  intro d env
  obtain ⟨lines, el⟩ : ∃ lines, lines = splitC '\n' d := ⟨_, rfl⟩
  have hne : lines ≠ [] := by rw [el]; exact splitC_ne_nil '\n' d
  have hl : ∀ t ∈ lines, '\n' ∉ t := by rw [el]; exact fun t ht => splitC_no_sep '\n' d t ht
  have hd : d = join c!"\n" lines := by rw [el, join_splitC]
  obtain ⟨R, eR⟩ : ∃ R : LineRx, R = ⟨r, headVars l, .start, false⟩ := ⟨_, rfl⟩
  have hRa : R.action = .start := by rw [eR]
  obtain ⟨info, einfo⟩ : ∃ info, info = tplInfo (name ++ c!"*") := ⟨_, rfl⟩
  have hrun := runRe_rows mf info R (by rw [hRa]; rfl) (headFit l) (by rw [eR]; exact hr) rowRec env lines hne hl
    (fun t _ c p hc => by rw [eR]; exact checkMatch_table mf hmf l h r t c p env hc)
  let hits : List TTP.Hit := (lines.filterMap (headFit l)).map (fun c => toHit env ⟨info, R, rowRec c⟩)
  have hof : ∀ x ∈ hits, OfGroup (name ++ c!"*", 0) [name ++ c!"*"] [] x := by
    intro x hx
    obtain ⟨c, hc, rfl⟩ := List.mem_map.1 hx
    have hup : ∀ dd : Dict Str Val, updateRuns [] dd = [] := by
      intro dd
      unfold updateRuns
      induction dd with
      | nil => rfl
      | cons a dd ih => simpa using ih
    refine ⟨by simp [toHit, einfo, tplInfo], by simp [toHit, einfo, tplInfo], by simp [toHit, einfo, tplInfo], ?_, by simp [toHit, einfo, tplInfo], ?_, ?_⟩
    · simp [toHit, einfo, tplInfo, hup]
    · left; simp [toHit, hRa, Action.isStart]
    · intro dd hdd
      simp only [toHit, rowRec] at hdd
      split at hdd
      case isFalse => cases hdd
      simp only [Option.some.injEq] at hdd
      subst hdd
      obtain ⟨t, _, hft⟩ := List.mem_filterMap.1 hc
      unfold headFit at hft
      split at hft
      case isFalse => cases hft
      simp only [Option.some.injEq] at hft
      subst hft
      apply recOf_WF
      rw [List.map_map]
      have : (Prod.fst ∘ fun c : Str × Str => (c.1, Py.strip c.2)) = Prod.fst := rfl
      rw [this, caps_names l h]
      exact h.nodup
  obtain ⟨hn1, hn2, _, hn3⟩ := hname
  have hst : StaticPath [name ++ c!"*"] := by
    intro item hi
    simp only [List.mem_singleton] at hi
    subst hi
    simp only [List.mem_append, List.mem_singleton, not_or]
    exact ⟨fun h => (hn3 _ h).2.2.1 rfl, by decide⟩
  obtain ⟨recs, h1, _, h2⟩ := C10_flat_group toInt gf [] env.vars env.gvars (name ++ c!"*", 0) [name ++ c!"*"] hst (by simp) [] hits hof (.dict [])
  rw [segments_rows l lines env info R hRa] at h1
  have hsame := sameDict_rows (fun t => recOf (l.cells t)) _ _ h1
  have hrec : ∀ x ∈ recs, x ≠ [] := by
    refine records_ne _ _ h1 ?_
    intro seg hs
    obtain ⟨t, _, rfl⟩ := List.mem_map.1 hs
    intro he
    have hc : l.cells t = [] := by simpa [recOf] using he
    have := caps_names l h t
    rw [← cells_eq] at hc
    have hz : l.names.zip (cutAt l.widths t) = [] := List.map_eq_nil_iff.1 hc
    rw [hz] at this
    exact h.some (List.map_eq_nil_iff.1 this.symm)
  refine ⟨_, ⟨recs, by rw [← el]; exact hsame, rfl⟩, ?_⟩
  have hsv : saveVars toInt [] ⟨.dict [], [], [], Record.empty, [], env.vars, env.gvars⟩ =
      .ok ⟨.dict [], [], [], Record.empty, [], env.vars, env.gvars⟩ := by
    simp [saveVars, sorted, saveVarsAll, pure_ok, ok_bind]
  have hraw := rowDict_hits env info R (headFit l) rowRec 0 lines
  have hgrp : tableGrp (name ++ c!"*") l r = .mk info [R] [] [] false [] := by rw [eR, einfo]; rfl
  simp only [List.map_cons, List.map_nil, hgrp]
  rw [hd]
  cases hrd : rowDict info R (headFit l) rowRec 0 lines with
  | nil =>
    have hnone := rowDict_nil _ _ _ _ _ _ hrd
    have hnil : recs = [] := by
      have : lines.filter (fun t => decide (l.IsRow t)) = [] := by
        rw [List.filter_eq_nil_iff]
        intro t ht hrow
        have hrow : l.IsRow t := by simpa using hrow
        have := (List.filterMap_eq_nil_iff.1 hnone) t ht
        unfold headFit at this
        rw [if_pos hrow.1] at this
        cases this
      rw [this] at h1
      cases h1; rfl
    rw [hrd] at hrun
    simp only [parseText, runGroups, hrun, ok_bind, pure_ok, List.isEmpty_nil, Bool.not_true, Bool.false_eq_true, if_false,
      List.filter_cons, List.filter_nil, List.map_nil, if_true, hnil]
    exact C19_nothing_without_matches toInt gf [] env.vars env.gvars (.dict [])
  | cons x xs =>
    have hsort := sortRaw_rowDict info R (headFit l) rowRec 0 lines
    rw [hsv] at h2
    simp only [ok_bind] at h2
    rw [parsePath_star name (fun h => (hn3 _ h).2.1 rfl), saveMany_fresh toInt name hn2 recs hrec] at h2
    rw [hrd] at hrun
    simp only [parseText, runGroups, hrun, ok_bind, pure_ok, List.filter_cons, List.isEmpty_cons, Bool.not_false, if_true, List.filter_nil,
      List.map_cons, List.map_nil]
    rw [hrd] at hraw hsort
    rw [hsort, hraw]
    exact h2

/-- C99. The functions that TTP has satisfy what is asked for, if the method `strip` of texts is what it is in Python. -/
theorem C99_builtin (W : MatchFn.World) (h1 : W.other ⟨c!"strip", [], []⟩ = none)
    (h2 : ∀ s, W.method ⟨c!"strip", [], []⟩ (.str s) = .ok (some (.str (Py.strip s)))) : TableFns (MatchFn.builtin W) := by
  have hex : ∀ n s env, MatchFn.callPure W (fn c!"exclude" [.str n]) env (.str s) = .ok (.str s, MatchFn.chk (!Py.contains s n)) := by
    intro n s env
    simp [MatchFn.callPure, fn, MatchFn.bindArgs, Dict.keys, MatchFn.req, MatchFn.exclude, MatchFn.inData, MatchFn.reqStr, ok_bind, pure_ok, Dict.get?]
  refine ⟨?_, ?_, ?_⟩
  · intro env s
    have hc : MatchFn.call W ⟨c!"strip", [], []⟩ env (.str s) = .error .keyError := by
      unfold MatchFn.call
      rw [if_neg (by simp), if_neg (by simp), if_neg (by simp), if_neg (by simp; intro h; revert h; decide), if_neg (by simp [MatchFn.lookupElsewhere])]
      simp [MatchFn.otherCall, h1, throw_err]
    unfold MatchFn.builtin
    rw [hc]
    simp [MatchFn.callMethod, h2, ok_bind, pure_ok]
  · intro env n s h
    have := builtin_named W c!"exclude" [.str n] env (.str s) (by decide) (by decide) (by decide) (by simp [MatchFn.lookupElsewhere, fn]) _ (hex n s env)
    rw [fn] at this
    rw [this, (contains_iff s n).2 h]
    rfl
  · intro env n s h
    have := builtin_named W c!"exclude" [.str n] env (.str s) (by decide) (by decide) (by decide) (by simp [MatchFn.lookupElsewhere, fn]) _ (hex n s env)
    rw [fn] at this
    have hf : Py.contains s n = false := by
      cases hb : Py.contains s n with
      | false => rfl
      | true => exact absurd ((contains_iff s n).1 hb) h
    rw [this, hf]
    rfl

/-! A line of headings and a text that meet the hypotheses. -/
namespace Ex

/-- ` Port   Name  Status {{ _headers_ }}` -/
def headL : HeadLine := ⟨c!" ", [(c!"Port", c!"   "), (c!"Name", c!"  "), (c!"Status", c!" ")], none⟩

theorem headL_ok : headL.OK where
  indent := by unfold headL Blank; decide
  some := by decide
  ident := by
    have : ∀ n ∈ headL.names, n ≠ [] ∧ (∀ c ∈ n, isWord c = true) ∧ (∀ c ∈ n.head?, isDigit c = false) := by decide
    intro n hn
    obtain ⟨a, b, e⟩ := this n hn
    refine ⟨a, b, ?_⟩
    rintro c cs rfl
    exact e c rfl
  nodup := by decide
  free := by decide
  gaps := by unfold headL Blank; decide
  apart := by decide
  three := fun _ => by decide

/-- where every argument is a text -/
def hctx : LoadCtx := ⟨[], fun _ => none, fun s => some ([.str s], []), fun _ => none, fun _ => false⟩

theorem hctx_ok : TableCtx hctx headL := ⟨fun _ _ => ⟨rfl, by simp [hctx, Dict.keys]⟩, (fun _ h => by cases h), rfl⟩

/-- the match functions, with `strip` -/
def hworld : MatchFn.World := ⟨[], .none, fun f v => match f.name, v with
  | ['s', 't', 'r', 'i', 'p'], .str s => .ok (some (.str (Py.strip s)))
  | _, _ => .ok none, fun _ => none, fun _ => .error .valueError, fun _ _ _ => .error .valueError, fun _ => none, fun _ => none, fun _ => false, fun _ => .none, [], .list []⟩

theorem hworld_ok : TableFns (MatchFn.builtin hworld) := C99_builtin hworld rfl (fun _ => rfl)

/-- a table -/
def htable : Str := c!" Port   Name  Status\n a/1    x y   up\n a/2    z\n a\n\n Port9  w     up"

end Ex

example : Ex.headL.source = c!" Port   Name  Status {{ _headers_ }}" := by decide
example : Ex.headL.widths = [8, 6] ∧ Ex.headL.mandatory = 1 := by decide
example : Ex.headL.cells c!" a/1    x y   up" = [(c!"Port", c!"a/1"), (c!"Name", c!"x y"), (c!"Status", c!"up")] := by decide
example : Ex.headL.cells c!" a/2    z" = [(c!"Port", c!"a/2"), (c!"Name", c!"z"), (c!"Status", [])] := by decide

example : ∃ gs, loadGroups Ex.hctx c!"." 0 0 [tableXml c!"ports*" Ex.headL none] = .ok gs ∧
    ∀ d env, ∃ v, TableMeans c!"ports" false Ex.headL d v ∧
      (parseText (MatchFn.builtin Ex.hworld) Ex.gf0 false [] (gs.map (·.grp)) (dataText d) env (.dict [])).map (·.results) = .ok v :=
  C99_table Ex.hctx _ Ex.hworld_ok Ex.gf0 false c!"ports" (by unfold GroupName; decide) Ex.headL Ex.headL_ok Ex.hctx_ok none

/-- with `columns(2)` -/
def Ex.headC : HeadLine := { Ex.headL with columns := some 2 }
/-- where numbers are numbers -/
def Ex.hctxN : LoadCtx := { Ex.hctx with eval := fun s => if isdigitS s then some ([.int (natOfDigits s)], []) else some ([.str s], []) }

example : TableCtx Ex.hctxN Ex.headC ∧ Ex.headC.source = c!" Port   Name  Status {{ _headers_ | columns(2) }}" ∧ Ex.headC.mandatory = 2 := by
  refine ⟨⟨?_, ?_, rfl⟩, by decide, by decide⟩
  · have : ∀ n ∈ Ex.headC.names, isdigitS n = false := by decide
    intro n hn
    exact ⟨by simp [Ex.hctxN, this n hn], by simp [Ex.hctxN, Ex.hctx, Dict.keys]⟩
  · intro n h
    have h2 : isdigitS (natStr n) = true := by
      have := natStr_ne_nil n
      simp [isdigitS, natStr_digits, this]
    simp [Ex.hctxN, h2, natStr_val]

/-- C99. The heading line itself is no row, nor is any line with a cell that contains the name of its column: the table of the ports
`a` and `Port9` has no record for the second. (An empty line is no row either.) -/
theorem C99_cell_with_heading : ¬ Ex.headL.IsRow c!" Port   Name  Status" ∧ ¬ Ex.headL.IsRow c!" Port9  w     up" ∧ ¬ Ex.headL.IsRow [] ∧
    Ex.headL.IsRow c!" a" := by
  have h1 : Ex.headL.cells c!" Port   Name  Status" = [(c!"Port", c!"Port"), (c!"Name", c!"Name"), (c!"Status", c!"Status")] := by decide
  have h2 : Ex.headL.cells c!" Port9  w     up" = [(c!"Port", c!"Port9"), (c!"Name", c!"w"), (c!"Status", c!"up")] := by decide
  have h3 : Ex.headL.cells c!" a" = [(c!"Port", c!"a"), (c!"Name", []), (c!"Status", [])] := by decide
  refine ⟨fun h => ?_, fun h => ?_, fun h => absurd h.1 (by decide), by decide, ?_⟩
  · exact h.2 (c!"Port", c!"Port") (by rw [h1]; simp) ((contains_iff _ _).1 (by decide))
  · exact h.2 (c!"Port", c!"Port9") (by rw [h2]; simp) ((contains_iff _ _).1 (by decide))
  · rw [h3]
    intro c hc hin
    have := (contains_iff _ _).2 hin
    simp only [List.mem_cons, List.not_mem_nil, or_false] at hc
    rcases hc with rfl | rfl | rfl <;> revert this <;> decide

/-- C99 needs three headings: with two of them and without `columns`, the expression has every name twice and the template cannot be
loaded; with one heading it is `IndexError`. -/
theorem C99_two_headings :
    loadLine Ex.hctx (.str c!"_Not_Given_") c!"Port Name {{ _headers_ }}" [] = .error .reError ∧
    loadLine Ex.hctx (.str c!"_Not_Given_") c!"Port {{ _headers_ }}" [] = .error .indexError := by decide +kernel

/-- With a text as `default` of the group, `_headers_` becomes a key of the defaults, and so of every record. -/
theorem C99_default_adds_headers :
    (loadLine Ex.hctx (.str c!"none") Ex.headL.source []).map (·.2) =
      .ok [(.s c!"_headers_", .str c!"none"), (.s c!"Port", .str c!"none"), (.s c!"Name", .str c!"none"), (.s c!"Status", .str c!"none")] := by
  decide +kernel

end Props
