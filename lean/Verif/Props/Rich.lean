import Verif.Proofs.Rich5
import Verif.Proofs.Rich6
import Verif.Proofs.RichFns1
import Verif.Props.Whole
import Verif.Props.Plain
import Verif.Props.Args
import Verif.Props.Equal
/-!
# C151: what a template with one flat group makes of a text, with patterns, functions, defaults, `_start_` and `_end_`
-/

namespace Props
open Py Spec TTP

/-! ## C10 with end lines -/

/-- C10 with `_end_` lines: as `C10_flat_group`, for matches that begin with a match of a start line; an end line makes the lines up to
the next start be ignored. Variables are left alone. -/
theorem C10_with_ends (toInt : Bool) (gf : GroupFns) (vars gvars : Dict Str Val) (g : GId) (path : List Str) (hs : StaticPath path)
    (hne : path ≠ []) (dflt : Dict Key Val) (hits : List TTP.Hit) (hof : ∀ h ∈ hits, OfGroupE g path dflt h)
    (hfirst : ∀ h ∈ hits.head?, h.1.action.isStart = true) (R0 : Val) :
    ∃ recs, All2 (IsRecordOf dflt) (segments (hits.map evOfE)) recs ∧ (∀ r ∈ recs, Dict.WF r) ∧
      (makeResults toInt gf [] vars gvars [hits.map ([·])] R0).map (fun m => (m.results, m.vars, m.gvars)) =
        (saveMany toInt (parsePath path) recs R0).map (fun R => (R, vars, gvars)) := by
  have hwf : ∀ ev ∈ hits.map evOfE, match ev with
      | .start d => Dict.WF d
      | .line d => Dict.WF d
      | .badStart => True := by
    intro ev hev
    obtain ⟨h, hh, rfl⟩ := List.mem_map.1 hev
    unfold evOfE
    cases hd : h.2 with
    | none => trivial
    | some d =>
      have := (hof h hh).wf d hd
      cases h.1.action <;> simp [Dict.WF, Dict.keys] <;> exact this
  refine ⟨recsOf dflt none false (hits.map evOfE), (recsOf_segments dflt _ hwf).1 false,
    recsOf_WF dflt none false _ (by intro r e; cases e) hwf, ?_⟩
  have hsv : saveVars toInt [] ⟨R0, [], [], Record.empty, [], vars, gvars⟩ = .ok ⟨R0, [], [], Record.empty, [], vars, gvars⟩ := by
    simp [saveVars, sorted, saveVarsAll, pure_ok, ok_bind]
  unfold makeResults
  simp only [List.isEmpty_cons, Bool.false_eq_true, if_false, List.flatten_cons, List.flatten_nil, List.append_nil, hsv, ok_bind]
  exact flat_simE toInt gf g path hs hne dflt hits hof ⟨R0, [], [], Record.empty, [], vars, gvars⟩ none false
    ⟨rfl, fun _ => rfl, by simp⟩ (Or.inr (Or.inr hfirst))

/-- C10 with `_end_` lines and group functions: as `C10_with_ends`; if the functions have an answer to every record, what they let pass is
saved, as they leave it. -/
theorem C10_with_functions (toInt : Bool) (gf : GroupFns) (env : Env) (fs : List FnCall) (g : GId) (path : List Str) (hs : StaticPath path)
    (hne : path ≠ []) (dflt : Dict Key Val) (hits : List TTP.Hit) (hof : ∀ h ∈ hits, OfGroupF g path dflt fs h)
    (hfirst : ∀ h ∈ hits.head?, h.1.action.isStart = true) (R0 : Val) :
    ∃ recs, All2 (IsRecordOf dflt) (segments (hits.map evOfE)) recs ∧ (∀ r ∈ recs, Dict.WF r) ∧
      ((∀ r ∈ recs, ∃ out, GJudged gf dflt env fs r out) →
      (makeResults toInt gf [] env.vars env.gvars [hits.map ([·])] R0).map (fun m => (m.results, m.vars, m.gvars)) =
        (saveMany toInt (parsePath path) (recs.filterMap (keptOf gf dflt env fs)) R0).map (fun R => (R, env.vars, env.gvars))) := by
  have hwf : ∀ ev ∈ hits.map evOfE, match ev with
      | .start d => Dict.WF d
      | .line d => Dict.WF d
      | .badStart => True := by
    intro ev hev
    obtain ⟨h, hh, rfl⟩ := List.mem_map.1 hev
    unfold evOfE
    cases hd : h.2 with
    | none => trivial
    | some d =>
      have := (hof h hh).wf d hd
      cases h.1.action <;> simp [Dict.WF, Dict.keys] <;> exact this
  refine ⟨recsOf dflt none false (hits.map evOfE), (recsOf_segments dflt _ hwf).1 false,
    recsOf_WF dflt none false _ (by intro r e; cases e) hwf, fun hj => ?_⟩
  have hsv : saveVars toInt [] ⟨R0, [], [], Record.empty, [], env.vars, env.gvars⟩ = .ok ⟨R0, [], [], Record.empty, [], env.vars, env.gvars⟩ := by
    simp [saveVars, sorted, saveVarsAll, pure_ok, ok_bind]
  unfold makeResults
  simp only [List.isEmpty_cons, Bool.false_eq_true, if_false, List.flatten_cons, List.flatten_nil, List.append_nil, hsv, ok_bind]
  exact flat_simF toInt gf g path hs hne dflt env fs hits hof ⟨R0, [], [], Record.empty, [], env.vars, env.gvars⟩ none false
    ⟨rfl, fun _ => rfl, by simp, rfl, rfl⟩ hj (Or.inr (Or.inr hfirst))

/-! ## Lemmas -/

theorem seg_prefix (a b : List Ev) (h : ∀ d, Ev.start d ∉ a) : segments (a ++ b) = segments b := by
  induction a with
  | nil => rfl
  | cons e a ih =>
    have := ih (fun d hd => h d (by simp [hd]))
    cases e with
    | start d => exact absurd (by simp) (h d)
    | badStart => exact this
    | line d => exact this

theorem linesOf_bad (b c : List Ev) : linesOf (b ++ .badStart :: c) = linesOf (b ++ [.badStart]) := by
  induction b with
  | nil => rfl
  | cons e b ih =>
    cases e with
    | line d => simp only [List.cons_append, linesOf, ih]
    | start d => rfl
    | badStart => rfl

theorem seg_suffix (b c : List Ev) (h : ∀ d, Ev.start d ∉ c) : segments (b ++ .badStart :: c) = segments (b ++ [.badStart]) := by
  induction b with
  | nil =>
    simp only [List.nil_append, segments]
    have := seg_prefix c [] h
    simpa [segments] using this
  | cons e b ih =>
    cases e with
    | line d => simpa only [List.cons_append, segments] using ih
    | start d => simp only [List.cons_append, segments, ih, linesOf_bad b c]
    | badStart => simpa only [List.cons_append, segments] using ih

/-- what readings do -/
def richEvsOf (tpl : List RLine) (rs : Readings) : List Ev := (rs.filterMap id).filterMap (richEv tpl)

theorem richEvsOf_append (tpl : List RLine) (a b : Readings) : richEvsOf tpl (a ++ b) = richEvsOf tpl a ++ richEvsOf tpl b := by
  simp [richEvsOf]

theorem mem_richEvs_start (tpl : List RLine) (rs : Readings) (d : Dict Key Val) (h : Ev.start d ∈ richEvsOf tpl rs) :
    ∃ j, some (j, some d) ∈ rs ∧ kindAt tpl j = .start := by
  simp only [richEvsOf, List.mem_filterMap, id] at h
  obtain ⟨⟨j, out⟩, ⟨r, hr, rfl⟩, he⟩ := h
  unfold richEv at he
  simp only at he
  split at he
  · rename_i _ _ h1
    cases he
    exact ⟨j, hr, h1⟩
  all_goals cases he

theorem get_of_mem {α : Type} (l : List α) (x : α) (h : x ∈ l) : ∃ k : Nat, l[k]? = some x := List.getElem?_of_mem h

theorem evs_of_hits (env : Env) (ctx : LoadCtx) (tpl : List RLine) (ho : ∀ l ∈ tpl, l.OK ctx) (info : GInfo) (rs : Readings)
    (hrs : ∀ j out, some (j, out) ∈ rs → (∃ l, tpl[j]? = some l) ∧ (kindAt tpl j = .stop → out ≠ none)) :
    (((rs.map (fun r => r.bind (hitFor info tpl))).filterMap id).map (toHit env)).map evOfE = richEvsOf tpl rs := by
  induction rs with
  | nil => rfl
  | cons r rs ih =>
    have ih := ih (fun j out h => hrs j out (by simp [h]))
    cases r with
    | none => simpa [richEvsOf] using ih
    | some x =>
      obtain ⟨j, out⟩ := x
      obtain ⟨⟨l, hl⟩, hstop⟩ := hrs j out (by simp)
      have hact := (richRx_action ctx l (ho l (List.mem_of_getElem? hl)) j).1
      have hk := kindAt_get tpl j l hl
      have e : richEvsOf tpl (some (j, out) :: rs) = (richEv tpl (j, out)).toList ++ richEvsOf tpl rs := by
        simp only [richEvsOf, List.filterMap_cons, id]
        cases richEv tpl (j, out) <;> simp
      rw [e, List.map_cons, ← ih]
      simp only [Option.bind_some, hitFor, hl, Option.getD_some]
      cases hkd : kindOf j l with
      | start =>
        rw [hkd] at hk hact
        have hne : ¬ (kindAt tpl j ≠ .start ∧ out = none) := fun h => h.1 hk
        rw [if_neg hne]
        cases out with
        | none => simp [richEv, hk, evOfE, toHit, hact]
        | some d => simp [richEv, hk, evOfE, toHit, hact, kindAction]
      | stop =>
        rw [hkd] at hk hact
        obtain ⟨d, rfl⟩ := Option.ne_none_iff_exists'.1 (hstop hk)
        have hne : ¬ (kindAt tpl j ≠ .start ∧ some d = none) := fun h => by cases h.2
        rw [if_neg hne]
        simp [richEv, hk, evOfE, toHit, hact, kindAction]
      | normal =>
        rw [hkd] at hk hact
        cases out with
        | none =>
          rw [if_pos ⟨by rw [hk]; simp, rfl⟩]
          simp [richEv, hk]
        | some d =>
          have hne : ¬ (kindAt tpl j ≠ .start ∧ some d = none) := fun h => by cases h.2
          rw [if_neg hne]
          simp [richEv, hk, evOfE, toHit, hact, kindAction]

theorem updateRuns_id (runs : Dict Key Val) (data : Dict Str Val) (h : ∀ kv ∈ runs, ∀ s, kv.2 = .str s → s ∉ Dict.keys data) :
    updateRuns runs data = runs := by
  unfold updateRuns
  induction data with
  | nil => rfl
  | cons a data ih =>
    simp only [List.foldl_cons]
    have e : runs.map (fun d => if d.2 = .str a.1 then (d.1, a.2) else d) = runs := by
      have : ∀ d ∈ runs, (fun d : Key × Val => if d.2 = .str a.1 then (d.1, a.2) else d) d = id d := by
        intro d hd
        simp only [id]
        rw [if_neg]
        intro e
        exact h d hd _ e (by simp [Dict.keys])
      rw [List.map_congr_left this, List.map_id]
    rw [e]
    exact ih (fun kv hkv s hs hm => h kv hkv s hs (by simp only [Dict.keys, List.map_cons, List.mem_cons] at hm ⊢; exact Or.inr hm))

theorem valued_plain (mf : MatchFns) (env : Env) (vals : List (RVar × Str)) (out : Option (Dict Key Val)) (h : Valued mf env vals out)
    (hp : ∀ vu ∈ vals, vu.1.checks = []) : out ≠ none := by
  have judged : ∀ (v : Val) (o : Option Val), Judged mf env [] v o → o = some v := by
    intro v o h; cases h; rfl
  induction h with
  | nil => simp
  | go => simp
  | @no v u vals h1 =>
    rw [hp (v, u) (by simp)] at h1
    cases judged _ _ h1
  | @later v u w vals h1 _ ih => exact absurd rfl (ih (fun vu h => hp vu (by simp [h])))

theorem record_of_default (dflt : Dict Key Val) (seg : Dict Key Val × List (Dict Key Val)) (r : Dict Key Val) (h : IsRecordOf dflt seg r)
    (hs : seg.1 ≠ [] ∨ dflt ≠ []) : r ≠ [] := by
  rintro rfl
  have none_all : ∀ k, ∀ d ∈ seg.1 :: seg.2 ++ [dflt], Dict.get? d k = none := by
    intro k d hd
    have := h k
    rw [show Dict.get? ([] : Dict Key Val) k = none from rfl] at this
    have := List.findSome?_eq_none_iff.1 this.symm d hd
    exact this
  have ne : ∀ d ∈ seg.1 :: seg.2 ++ [dflt], d = [] := by
    intro d hd
    cases hc : d with
    | nil => rfl
    | cons a as =>
      have := none_all a.1 d hd
      rw [hc] at this
      simp [Dict.get?] at this
  rcases hs with hs | hs
  · exact hs (ne _ (by simp))
  · exact hs (ne _ (by simp))

theorem records_of_default (dflt : Dict Key Val) (segs : List (Dict Key Val × List (Dict Key Val))) (recs : List (Dict Key Val))
    (h : All2 (IsRecordOf dflt) segs recs) (hs : ∀ seg ∈ segs, seg.1 ≠ [] ∨ dflt ≠ []) : ∀ r ∈ recs, r ≠ [] := by
  induction h with
  | nil => intro r hr; cases hr
  | cons hab _ ih =>
    intro r hr
    rcases List.mem_cons.1 hr with rfl | hr
    · exact record_of_default _ _ _ hab (hs _ (by simp))
    · exact ih (fun seg hs' => hs seg (by simp [hs'])) r hr

theorem isStart_iff (tpl : List RLine) (reads : Readings) :
    (∀ r ∈ reads, ¬ IsStart tpl r) ↔ ∀ k, ¬ KindRead tpl reads .start k := by
  constructor
  · rintro h k ⟨j, out, hk, hs⟩
    exact h _ (List.mem_of_getElem? hk) hs
  · intro h r hr hs
    cases r with
    | none => exact hs
    | some x =>
      obtain ⟨k, hk⟩ := get_of_mem reads _ hr
      exact h k ⟨x.1, x.2, hk, hs⟩

/-! ## One text -/

theorem parse_rich (ctx : LoadCtx) (mf : MatchFns) (gf : GroupFns) (toInt : Bool) (gname : Str) (hname : '{' ∉ gname) (fs : List FnCall) (tpl : List RLine)
    (ho : ∀ l ∈ tpl, l.OK ctx) (lines : List Str) (hne : lines ≠ []) (hl : ∀ t ∈ lines, '\n' ∉ t) (env : Env) (hd : DefaultsPlain env tpl)
    (he : EndsPlain tpl) (reads : Readings) (hr : All2 (RichReads mf env tpl) lines reads) :
    ∃ evs recs, RichEvs tpl reads evs ∧ All2 (IsRecordOf (richDefaults tpl)) (segments evs) recs ∧ (∀ r ∈ recs, r ≠ [] ∧ Dict.WF r) ∧
      ((∀ r ∈ recs, ∃ out, GJudged gf (richDefaults tpl) env fs r out) →
      (parseText mf gf toInt [] [richGrp gname fs tpl] (dataText (join c!"\n" lines)) env (.dict [])).map (fun m => (m.results, m.vars, m.gvars)) =
        (saveMany toInt (parsePath (splitC '.' gname)) (recs.filterMap (keptOf gf (richDefaults tpl) env fs)) (.dict [])).map
          (fun R => (R, env.vars, env.gvars))) := by
  have hst : StaticPath (splitC '.' gname) := by
    intro item hi hb
    exact hname (splitC_sub '.' gname item hi _ hb)
  have hruns : updateRuns (updateRuns (richDefaults tpl) env.gvars) env.vars = richDefaults tpl := by
    rw [updateRuns_id _ _ (fun kv hkv s hs => (hd kv hkv s hs).2), updateRuns_id _ _ (fun kv hkv s hs => (hd kv hkv s hs).1)]
  -- what a reading tells
  have read : ∀ j out, some (j, out) ∈ reads → ∃ l t vals, tpl[j]? = some l ∧ l.Fits t vals ∧ Valued mf env vals out := by
    intro j out hm
    obtain ⟨k, hk⟩ := get_of_mem reads _ hm
    have hkl : k < lines.length := by rw [all2_len hr]; exact (List.getElem?_eq_some_iff.1 hk).1
    obtain ⟨r, h1, h2⟩ := all2_get hr k lines[k] (List.getElem?_eq_getElem hkl)
    rw [hk] at h1
    cases h1
    obtain ⟨l, vals, a1, a2, a3, _⟩ := h2
    exact ⟨l, _, vals, a1, a2, a3⟩
  have hstop : ∀ j out, some (j, out) ∈ reads → (∃ l, tpl[j]? = some l) ∧ (kindAt tpl j = .stop → out ≠ none) := by
    intro j out hm
    obtain ⟨l, t, vals, a1, a2, a3⟩ := read j out hm
    refine ⟨⟨l, a1⟩, fun hk => valued_plain mf env vals out a3 ?_⟩
    intro vu hvu
    rw [kindAt_get tpl j l a1] at hk
    exact he j l a1 hk vu.1 (by rw [← fits_vars l t vals a2]; exact List.mem_map.2 ⟨vu, hvu, rfl⟩)
  have hwf : ∀ j d, some (j, some d) ∈ reads → Dict.WF d ∧ d ≠ [] := by
    intro j d hm
    obtain ⟨l, t, vals, a1, a2, a3⟩ := read j (some d) hm
    have hok := ho l (List.mem_of_getElem? a1)
    have hkeys := valued_WF mf env vals _ a3 d rfl
    have hvars := fits_vars l t vals a2
    constructor
    · unfold Dict.WF
      rw [hkeys]
      have := fits_nodup ctx l hok t vals a2
      rw [show vals.map (fun vu => Key.s vu.1.name) = (vals.map (fun vu => vu.1.name)).map Key.s by rw [List.map_map]; rfl]
      exact List.Pairwise.map _ (fun a b hab e => hab (Key.s.inj e)) this
    · rintro rfl
      cases vals with
      | nil => exact hok.some hvars.symm
      | cons => simp [Dict.keys] at hkeys
  by_cases hsome : ∃ k, KindRead tpl reads .start k
  · obtain ⟨i, n, log, hin, hrun, hsort, hi, hn, hmin, hend⟩ := runRe_rich_some mf env ctx tpl gname fs ho lines hne hl reads hr hsome
    have hlen := all2_len hr
    -- the hits
    generalize hmid : (reads.drop i).take n = mid at hsort
    have hmids : ∀ r ∈ mid, r ∈ reads := by
      intro r h
      rw [← hmid] at h
      exact List.mem_of_mem_drop (List.mem_of_mem_take h)
    let hits : List TTP.Hit := ((mid.map (fun r => r.bind (hitFor (richGInfo gname fs tpl) tpl))).filterMap id).map (toHit env)
    have hraw : (sortRaw (logDict [] log)).map (fun kv => kv.2.map (toHit env)) = hits.map ([·]) := by
      rw [hsort]
      have hlen' : ((lines.drop i).take n).length = (mid.map (fun r => r.bind (hitFor (richGInfo gname fs tpl) tpl))).length := by
        rw [← hmid]; simp [hlen]
      have hph := placed_hits ((lines.drop i).take n) (mid.map (fun r => r.bind (hitFor (richGInfo gname fs tpl) tpl))) (posOf lines i) hlen'
      rw [show (placed (posOf lines i) ((lines.drop i).take n) (mid.map (fun r => r.bind (hitFor (richGInfo gname fs tpl) tpl)))).map
        (fun kv => kv.2.map (toHit env)) = ((placed (posOf lines i) ((lines.drop i).take n)
          (mid.map (fun r => r.bind (hitFor (richGInfo gname fs tpl) tpl)))).map Prod.snd).map (List.map (toHit env)) by rw [List.map_map]; rfl, hph]
      simp only [hits, List.map_map]
      apply List.map_congr_left
      intro x _
      rfl
    -- the first reading is a start
    obtain ⟨j0, out0, hr0, hk0⟩ := hi
    have hmid0 : ∃ rest, mid = some (j0, out0) :: rest := by
      have h1 : mid[0]? = some (some (j0, out0)) := by
        rw [← hmid, List.getElem?_take_of_lt hn, List.getElem?_drop]; exact hr0
      cases mid with
      | nil => cases h1
      | cons x rest => simp only [List.getElem?_cons_zero, Option.some.injEq] at h1; exact ⟨rest, by rw [h1]⟩
    obtain ⟨l0, hl0⟩ := (hstop j0 out0 (List.mem_of_getElem? hr0)).1
    have hhits0 : ∃ rest, hits = toHit env ⟨richGInfo gname fs tpl, richAt j0 l0, out0⟩ :: rest := by
      obtain ⟨rest, e⟩ := hmid0
      have h0 : hitFor (richGInfo gname fs tpl) tpl (j0, out0) = some ⟨richGInfo gname fs tpl, richAt j0 l0, out0⟩ := by
        have hne : ¬ (kindAt tpl j0 ≠ .start ∧ out0 = none) := fun h => h.1 hk0
        simp only [hitFor, hl0, Option.getD_some]
        rw [if_neg hne]
      simp only [hits, e, List.map_cons, Option.bind_some, h0, List.filterMap_cons, id]
      exact ⟨_, rfl⟩
    have hnonempty : (logDict [] log).isEmpty = false := by
      cases hc : logDict [] log with
      | cons => rfl
      | nil =>
        rw [hc] at hraw
        obtain ⟨rest, e⟩ := hhits0
        rw [e] at hraw
        simp [sortRaw] at hraw
    have hof : ∀ h ∈ hits, OfGroupF (gname, 0) (splitC '.' gname) (richDefaults tpl) fs h := by
      intro h hh
      obtain ⟨rh, hrh, rfl⟩ := List.mem_map.1 hh
      obtain ⟨o, ho1, ho2⟩ := List.mem_filterMap.1 hrh
      simp only [id] at ho2
      subst ho2
      obtain ⟨r, hrm, hrb⟩ := List.mem_map.1 ho1
      cases r with
      | none => cases hrb
      | some x =>
        obtain ⟨j, out⟩ := x
        simp only [Option.bind_some] at hrb
        have hm := hmids _ hrm
        obtain ⟨l, hl'⟩ := (hstop j out hm).1
        have hact := (richRx_action ctx l (ho l (List.mem_of_getElem? hl')) j).1
        have hk := kindAt_get tpl j l hl'
        unfold hitFor at hrb
        split at hrb
        · cases hrb
        · rename_i hcond
          simp only [hl', Option.getD_some, Option.some.injEq] at hrb
          subst hrb
          refine ⟨rfl, rfl, rfl, hruns, rfl, ?_, ?_⟩
          · show (richAt j l).action.isStart = true ∨ (((richAt j l).action = .add ∨ (richAt j l).action = .end_) ∧ out ≠ none)
            rw [hact]
            cases hkd : kindOf j l with
            | start => left; rfl
            | stop =>
              right; refine ⟨Or.inr rfl, ?_⟩
              intro e; exact hcond ⟨by rw [hk, hkd]; simp, e⟩
            | normal =>
              right; refine ⟨Or.inl rfl, ?_⟩
              intro e; exact hcond ⟨by rw [hk, hkd]; simp, e⟩
          · intro d hd'
            have hd' : out = some d := hd'
            subst hd'
            exact (hwf j d hm).1
    have hfirst : ∀ h ∈ hits.head?, h.1.action.isStart = true := by
      obtain ⟨rest, e⟩ := hhits0
      rw [e]
      intro h hh
      simp only [List.head?_cons, Option.mem_def, Option.some.injEq] at hh
      subst hh
      show (richAt j0 l0).action.isStart = true
      rw [richAt_start ctx l0 (ho l0 (List.mem_of_getElem? hl0)), ← kindAt_get tpl j0 l0 hl0, hk0]
      rfl
    obtain ⟨recs, h1, hwr, h2⟩ := C10_with_functions toInt gf env fs (gname, 0) (splitC '.' gname) hst (splitC_ne_nil '.' gname) (richDefaults tpl) hits hof hfirst (.dict [])
    have hev : segments (hits.map evOfE) = segments (richEvsOf tpl reads) := by
      rw [evs_of_hits env ctx tpl ho (richGInfo gname fs tpl) mid (fun j out h => hstop j out (hmids _ h))]
      have hno : ∀ d, Ev.start d ∉ richEvsOf tpl (reads.take i) := by
        intro d h
        obtain ⟨j, hm, hk⟩ := mem_richEvs_start tpl _ d h
        obtain ⟨k, hk'⟩ := get_of_mem _ _ hm
        have hki : k < i := by
          have := (List.getElem?_eq_some_iff.1 hk').1
          simp at this; omega
        rw [List.getElem?_take_of_lt hki] at hk'
        have := hmin k ⟨j, some d, hk', hk⟩
        omega
      have hsplit : reads = reads.take i ++ (mid ++ reads.drop (i + n)) := by
        rw [← hmid, ← List.drop_drop, List.take_append_drop, List.take_append_drop]
      rw [hsplit, richEvsOf_append, seg_prefix _ _ hno, richEvsOf_append]
      rcases hend with hend | ⟨hstp, hbefore⟩
      · have : reads.drop (i + n) = [] := List.drop_eq_nil_of_le (by omega)
        rw [this]
        simp [richEvsOf]
      · have hno2 : ∀ d, Ev.start d ∉ richEvsOf tpl (reads.drop (i + n)) := by
          intro d h
          obtain ⟨j, hm, hk⟩ := mem_richEvs_start tpl _ d h
          obtain ⟨k, hk'⟩ := get_of_mem _ _ hm
          rw [List.getElem?_drop] at hk'
          have := hbefore _ ⟨j, some d, hk', hk⟩
          omega
        obtain ⟨j, out, hj, hkj⟩ := hstp
        have hlast : mid = (reads.drop i).take (n - 1) ++ [some (j, out)] := by
          rw [← hmid]
          have e : n = (n - 1) + 1 := by omega
          conv => lhs; rw [e]
          rw [List.take_add_one, List.getElem?_drop, show i + (n - 1) = i + n - 1 by omega, hj]
          rfl
        have hbad : richEvsOf tpl [some (j, out)] = [.badStart] := by
          simp [richEvsOf, richEv, hkj]
        rw [hlast, richEvsOf_append, hbad, List.append_assoc, List.singleton_append, seg_suffix _ _ hno2]
    rw [hev] at h1
    refine ⟨richEvsOf tpl reads, recs, Or.inr ⟨?_, rfl⟩, h1, ?_, ?_⟩
    · rintro ⟨h, _⟩
      obtain ⟨k, hk⟩ := hsome
      exact (isStart_iff tpl reads).1 h k hk
    · refine fun r hr => ⟨?_, hwr r hr⟩
      revert r
      apply records_of_default _ _ _ h1
      intro seg hseg
      obtain ⟨j, hm, _⟩ := mem_richEvs_start tpl reads seg.1 (mem_segments _ _ hseg)
      exact Or.inl (hwf j seg.1 hm).2
    · intro hj
      simp only [parseText, runGroups, hrun, ok_bind, pure_ok, List.filter_cons, hnonempty, Bool.not_false, if_true, List.filter_nil,
        List.map_cons, List.map_nil, hraw]
      exact h2 hj
  · have hno : ∀ k, ¬ KindRead tpl reads .start k := fun k hk => hsome ⟨k, hk⟩
    have hrun := runRe_rich_none mf env ctx tpl gname fs ho lines hne hl reads hr hno _ rfl
    have hns := (isStart_iff tpl reads).2 hno
    cases hdef : startDefault (selRx .start 0 tpl) (richDefaults tpl) with
    | true =>
      rw [hdef] at hrun
      have hsd := (startDefault_rich tpl).1 hdef
      obtain ⟨j, l, hj, hkj, v, hv, hkey⟩ := hsd
      have hdne : richDefaults tpl ≠ [] := by
        intro e; rw [e] at hkey; simp [Dict.keys] at hkey
      -- the match that stands for the defaults
      obtain ⟨jl, rest, hsel⟩ : ∃ jl rest, sel .start 0 tpl = jl :: rest := by
        have hm : (j, l) ∈ sel .start 0 tpl := (mem_sel .start tpl 0 j l).2 ⟨by omega, by simpa using hj, hkj⟩
        cases hc : sel .start 0 tpl with
        | nil => rw [hc] at hm; cases hm
        | cons a as => exact ⟨a, as, rfl⟩
      have hjl := (mem_sel .start tpl 0 jl.1 jl.2).1 (by rw [hsel]; simp)
      have hact := (richRx_action ctx jl.2 (ho jl.2 (List.mem_of_getElem? hjl.2.1)) jl.1).1
      rw [hjl.2.2] at hact
      let hits : List TTP.Hit := [toHit env ⟨richGInfo gname fs tpl, richAt jl.1 jl.2, some []⟩]
      have hadd : addDefault (richGInfo gname fs tpl) (selRx .start 0 tpl) [] = [(10000000, [⟨richGInfo gname fs tpl, richAt jl.1 jl.2, some []⟩])] := by
        simp [addDefault, freeKey, selRx, hsel, Dict.set]
      have hof : ∀ h ∈ hits, OfGroupF (gname, 0) (splitC '.' gname) (richDefaults tpl) fs h := by
        intro h hh
        simp only [hits, List.mem_singleton] at hh
        subst hh
        refine ⟨rfl, rfl, rfl, hruns, rfl, Or.inl ?_, ?_⟩
        · show (richAt jl.1 jl.2).action.isStart = true
          rw [hact]; rfl
        · intro d hd'
          have hd' : some [] = some d := hd'
          cases hd'
          simp [Dict.WF, Dict.keys]
      have hfirst : ∀ h ∈ hits.head?, h.1.action.isStart = true := by
        intro h hh
        simp only [hits, List.head?_cons, Option.mem_def, Option.some.injEq] at hh
        subst hh
        show (richAt jl.1 jl.2).action.isStart = true
        rw [hact]; rfl
      obtain ⟨recs, h1, hwr, h2⟩ := C10_with_functions toInt gf env fs (gname, 0) (splitC '.' gname) hst (splitC_ne_nil '.' gname) (richDefaults tpl) hits hof hfirst (.dict [])
      have hev : hits.map evOfE = [.start []] := by
        simp [hits, evOfE, toHit, hact, kindAction]
      rw [hev] at h1
      refine ⟨[.start []], recs, Or.inl ⟨hns, ⟨j, l, hj, hkj, v, hv, hkey⟩, rfl⟩, h1, ?_, ?_⟩
      · exact fun r hr => ⟨records_of_default _ _ _ h1 (fun _ _ => Or.inr hdne) r hr, hwr r hr⟩
      · intro hj
        rw [if_pos rfl, hadd] at hrun
        simp only [parseText, runGroups, hrun, ok_bind, pure_ok, List.filter_cons, List.isEmpty_cons, Bool.not_false, if_true, List.filter_nil,
          List.map_cons, List.map_nil, sortRaw, List.foldr_cons, List.foldr_nil, insertPos]
        exact h2 hj
    | false =>
      rw [hdef] at hrun
      have hnd : ¬ StartDefault tpl := fun h => by
        have := (startDefault_rich tpl).2 h
        rw [hdef] at this
        cases this
      have hseg : segments (richEvsOf tpl reads) = [] := by
        have := seg_prefix (richEvsOf tpl reads) [] (by
          intro d h
          obtain ⟨j, hm, hk⟩ := mem_richEvs_start tpl reads d h
          exact hns _ hm hk)
        simpa [segments] using this
      refine ⟨richEvsOf tpl reads, [], Or.inr ⟨fun h => hnd h.2, rfl⟩, by rw [hseg]; exact .nil, by simp, fun _ => ?_⟩
      simp only [parseText, runGroups, hrun, ok_bind, pure_ok, List.isEmpty_nil, Bool.not_true, Bool.false_eq_true, if_false,
        List.filter_cons, List.filter_nil, List.map_nil, if_true]
      rfl

/-- without functions the records pass -/
theorem kept_all (gf : GroupFns) (dflt : Dict Key Val) (env : Env) (recs : List (Dict Key Val)) (h : ∀ r ∈ recs, r ≠ [] ∧ Dict.WF r) :
    (∀ r ∈ recs, ∃ out, GJudged gf dflt env [] r out) ∧ recs.filterMap (keptOf gf dflt env []) = recs := by
  have hj : ∀ r ∈ recs, GJudged gf dflt env [] r (some r) := fun r hr => .done (h r hr).1 (h r hr).2
  refine ⟨fun r hr => ⟨_, hj r hr⟩, ?_⟩
  clear h
  induction recs with
  | nil => rfl
  | cons r recs ih =>
    rw [List.filterMap_cons, keptOf_eq (hj r (by simp))]
    simp only
    rw [ih (fun x hx => hj x (by simp [hx]))]

theorem rich_of_clear (mf : MatchFns) (env : Env) (tpl : List RLine) (lines : List Str) (h : ∀ t ∈ lines, ∃ r, RichReads mf env tpl t r) :
    ∃ reads, All2 (RichReads mf env tpl) lines reads := by
  induction lines with
  | nil => exact ⟨[], .nil⟩
  | cons t ts ih =>
    obtain ⟨r, hr⟩ := h t (by simp)
    obtain ⟨rs, hrs⟩ := ih (fun t' h' => h t' (by simp [h']))
    exact ⟨r :: rs, .cons hr hrs⟩

theorem rich_means (ctx : LoadCtx) (mf : MatchFns) (gf : GroupFns) (toInt : Bool) (name : Str) (hname : GroupName name) (tpl : List RLine)
    (ho : ∀ l ∈ tpl, l.OK ctx) (he : EndsPlain tpl) (env : Env) (hd : DefaultsPlain env tpl) (d : Str) (hc : RichClear mf env tpl d) :
    ∃ v, RichMeans mf env name toInt tpl d v ∧
      (parseText mf gf toInt [] [richGrp (name ++ c!"*") [] tpl] (dataText d) env (.dict [])).map (fun m => (m.results, m.vars, m.gvars)) =
        .ok (v, env.vars, env.gvars) := by
  obtain ⟨hn1, hn2, _, hn3⟩ := hname
  obtain ⟨reads, hr⟩ := rich_of_clear mf env tpl _ hc
  obtain ⟨evs, recs, h1, h2, h3, h4⟩ := parse_rich ctx mf gf toInt (name ++ c!"*") (by
    simp only [List.mem_append, List.mem_singleton, not_or]
    exact ⟨fun h => (hn3 _ h).2.2.1 rfl, by decide⟩) [] tpl ho (splitC '\n' d) (splitC_ne_nil '\n' d)
    (fun t ht => splitC_no_sep '\n' d t ht) env hd he reads hr
  obtain ⟨k1, k2⟩ := kept_all gf (richDefaults tpl) env recs h3
  have h4 := h4 k1
  rw [k2] at h4
  rw [join_splitC, splitC_self '.' _ (by
    simp only [List.mem_append, List.mem_singleton, not_or]
    exact ⟨fun h => (hn3 _ h).1 rfl, by decide⟩), parsePath_star name (fun h => (hn3 _ h).2.1 rfl),
    saveMany_fresh toInt name hn2 recs (fun r hr => (h3 r hr).1)] at h4
  exact ⟨_, ⟨reads, evs, recs, hr, h1, h2, rfl⟩, h4⟩

theorem load_rich (ctx : LoadCtx) (hp : ctx.patterns = getPattern) (hre : ctx.re = ReText.compile) (name : Str) (hname : GroupName name)
    (tpl : List RLine) (ho : ∀ l ∈ tpl, l.OK ctx) (tail : Option Str) :
    loadGroups ctx c!"." 0 0 [richXml (name ++ c!"*") tpl tail] = .ok [⟨0, name ++ c!"*", [], richGrp (name ++ c!"*") [] tpl⟩] := by
  obtain ⟨hn1, _, _, hn3⟩ := hname
  apply loadGroups_rich ctx hp hre (name ++ c!"*") (by simp) _ tpl ho tail
  · rintro ⟨r, e⟩
    obtain ⟨c, cs, ec⟩ := List.exists_cons_of_ne_nil hn1
    rw [ec] at e
    simp only [List.cons_append, List.cons.injEq] at e
    exact (hn3 c (by simp [ec])).2.2.2 e.1.symm

/-! ## C151 -/

/-- C151. A template with one flat group, whose variables can have patterns, functions, defaults, `_start_` and `_end_`: loading it
succeeds, and for every text whose lines are read in one way at most, and for all functions and variables around, the search and the results
machine give what the template means and leave the variables alone. -/
theorem C151_rich_template (ctx : LoadCtx) (hp : ctx.patterns = getPattern) (hre : ctx.re = ReText.compile) (mf : MatchFns) (gf : GroupFns)
    (toInt : Bool) (name : Str) (hname : GroupName name) (tpl : List RLine) (ho : ∀ l ∈ tpl, l.OK ctx)
    (he : EndsPlain tpl) (tail : Option Str) :
    ∃ gs, loadGroups ctx c!"." 0 0 [richXml (name ++ c!"*") tpl tail] = .ok gs ∧
      ∀ env, DefaultsPlain env tpl → ∀ d, RichClear mf env tpl d → ∃ v, RichMeans mf env name toInt tpl d v ∧
        (parseText mf gf toInt [] (gs.map (·.grp)) (dataText d) env (.dict [])).map (fun m => (m.results, m.vars, m.gvars)) =
          .ok (v, env.vars, env.gvars) := by
  refine ⟨_, load_rich ctx hp hre name hname tpl ho tail, ?_⟩
  intro env hd d hc
  exact rich_means ctx mf gf toInt name hname tpl ho he env hd d hc

/-- one group and texts: if every text makes one thing of what the group is, `parse` with one process puts the things in order -/
theorem object_of (E : Engine) (gname : Str) (grp : Grp) (vars gvars : Dict Str Val) (Clr : Str → Prop) (Mean : Str → Val → Prop)
    (hpt : ∀ d, Clr d → ∃ v, Mean d v ∧ formDatum v = .ok v ∧
      (parseText E.mf E.gf E.toInt [] [grp] (dataText d) ⟨vars, gvars⟩ (.dict [])).map (fun m => (m.results, m.vars, m.gvars)) = .ok (v, vars, gvars))
    (tname : Str) (lookups ovars olookups) (inputs : Dict Str (List Str)) (hc : ∀ i ∈ inputs, ∀ d ∈ i.2, Clr d) :
    ∃ o vs, parseOne E ⟨[⟨tname, [⟨0, gname, [], grp⟩], inputs.map (fun i => (i.1, ⟨i.2.map (fun d => ⟨.text, .str d⟩), [0], [], .dict []⟩)), vars, [], [],
        lookups, [], c!"per_input", .list []⟩], ovars, olookups, gvars⟩ = .ok o ∧
      All2 Mean (inputs.flatMap (·.2)) vs ∧ o.templates.map (·.results) = [.list vs] ∧ o.gvars = gvars := by
  -- one text
  have hone : ∀ (t : Tpl) (inp : TInput) (d : Str), t.groups = [⟨0, gname, [], grp⟩] →
      t.vtr = [] → t.varFns = [] → t.vars = vars → inp.groups = [0] → inp.functions = [] → Clr d →
      ∃ v, Mean d v ∧ parseDatum E t inp ⟨.text, .str d⟩ (.dict []) gvars = .ok (v, gvars) ∧
        formDatum v = .ok v := by
    intro t inp d h1 h2 h3 h6 h4 h5 hcl
    obtain ⟨v, hv, hf, hpt⟩ := hpt d hcl
    cases hpe : parseText E.mf E.gf E.toInt [] [grp] (dataText d) ⟨vars, gvars⟩ (.dict []) with
    | error e => rw [hpe] at hpt; cases hpt
    | ok ms =>
      rw [hpe] at hpt
      simp only [Except.map, Except.ok.injEq, Prod.mk.injEq] at hpt
      refine ⟨v, hv, ?_, hf⟩
      simp [parseDatum, dataOf, h1, h2, h3, h4, h5, h6, runVarFns, runInFns, groupsOf, hpe, ok_bind, pure_ok, hpt]
  -- all texts
  have hall : ∀ (t : Tpl), t.groups = [⟨0, gname, [], grp⟩] → t.vtr = [] → t.varFns = [] → t.vars = vars →
      ∀ (jobs : List (TInput × Datum)) (ds : List Str),
      All2 (fun j d => j.1.groups = [0] ∧ j.1.functions = [] ∧ j.2 = ⟨.text, .str d⟩) jobs ds →
      (∀ d ∈ ds, Clr d) →
      ∃ vs, EachOf E t jobs gvars gvars vs ∧ All2 Mean ds vs := by
    intro t h1 h2 h3 h6 jobs ds hj
    induction hj with
    | nil => intro _; exact ⟨[], .nil gvars, .nil⟩
    | @cons j d jobs ds hj _ ih =>
      intro hcl
      obtain ⟨inp, x⟩ := j
      obtain ⟨h4, h5, rfl⟩ := hj
      obtain ⟨v, hm, hp, hf⟩ := hone t inp d h1 h2 h3 h6 h4 h5 (hcl d (by simp))
      obtain ⟨vs, he, hms⟩ := ih (fun d' h' => hcl d' (by simp [h']))
      exact ⟨v :: vs, .cons hp hf he, .cons hm hms⟩
  generalize ht : (⟨tname, [⟨0, gname, [], grp⟩],
    inputs.map (fun i => (i.1, ⟨i.2.map (fun d => ⟨.text, .str d⟩), [0], [], .dict []⟩)), vars, [], [],
    lookups, [], c!"per_input", .list []⟩ : Tpl) = t
  have hjobs : All2 (fun (j : TInput × Datum) d => j.1.groups = [0] ∧ j.1.functions = [] ∧ j.2 = ⟨.text, .str d⟩)
      (t.inputs.flatMap (fun i => i.2.data.map (fun d => (i.2, d)))) (inputs.flatMap (·.2)) := by
    subst ht
    clear hc
    induction inputs with
    | nil => exact .nil
    | cons i is ih =>
      obtain ⟨n, ds⟩ := i
      simp only [List.map_cons, List.flatMap_cons]
      generalize hinp : (⟨ds.map (fun d => ⟨.text, .str d⟩), [0], [], .dict []⟩ : TInput) = inp at *
      have hd : inp.data = ds.map (fun d => ⟨.text, .str d⟩) := by rw [← hinp]
      have h4 : inp.groups = [0] := by rw [← hinp]
      have h5 : inp.functions = [] := by rw [← hinp]
      clear hd hinp
      induction ds with
      | nil => exact ih
      | cons d ds ihd => exact .cons ⟨h4, h5, rfl⟩ ihd
  obtain ⟨vs, he, hm⟩ := hall t (by rw [← ht]) (by rw [← ht]) (by rw [← ht]) (by rw [← ht]) _ _ hjobs (by
    intro d hd
    obtain ⟨i, hi, hd⟩ := List.mem_flatMap.1 hd
    exact hc i hi d hd)
  have hpi := (C33_per_input_entries E t { t with results := .list ([] ++ vs) } gvars gvars (by rw [← ht]) [] (by rw [← ht])).2
    ⟨vs, he, by
      have := EachOf_length _ _ _ _ _ _ he
      rw [this]
      simp [List.length_flatMap], rfl⟩
  have hout : runOutputs E { t with results := .list ([] ++ vs) } = .ok { t with results := .list ([] ++ vs) } :=
    runOutputs_nil E _ (by rw [← ht])
  refine ⟨⟨[{ t with results := .list ([] ++ vs) }], ovars, olookups, gvars⟩, vs, ?_, hm, by simp, rfl⟩
  simp only [parseOne, parseAllOne, hpi, ok_bind, pure_ok, runOutputsAll, hout]

/-- C151, the parser object: the template is loaded, any texts are given to it in any inputs, `parse` with one process succeeds, and
the results of the template are the meanings of the texts, in order; global variables are not changed. -/
theorem C151_object (ctx : LoadCtx) (hp : ctx.patterns = getPattern) (hre : ctx.re = ReText.compile) (E : Engine) (name : Str)
    (hname : GroupName name) (tpl : List RLine) (ho : ∀ l ∈ tpl, l.OK ctx) (hends : EndsPlain tpl) (tail : Option Str) (gs : List TopGroup)
    (hload : loadGroups ctx c!"." 0 0 [richXml (name ++ c!"*") tpl tail] = .ok gs) (tname : Str) (vars gvars lookups ovars olookups)
    (hdef : DefaultsPlain ⟨vars, gvars⟩ tpl)
    (inputs : Dict Str (List Str)) (hc : ∀ i ∈ inputs, ∀ d ∈ i.2, RichClear E.mf ⟨vars, gvars⟩ tpl d) :
    ∃ o vs, parseOne E ⟨[⟨tname, gs, inputs.map (fun i => (i.1, ⟨i.2.map (fun d => ⟨.text, .str d⟩), [0], [], .dict []⟩)), vars, [], [],
        lookups, [], c!"per_input", .list []⟩], ovars, olookups, gvars⟩ = .ok o ∧
      All2 (RichMeans E.mf ⟨vars, gvars⟩ name E.toInt tpl) (inputs.flatMap (·.2)) vs ∧ o.templates.map (·.results) = [.list vs] ∧
      o.gvars = gvars := by
  have hgs : gs = [⟨0, name ++ c!"*", [], richGrp (name ++ c!"*") [] tpl⟩] := by
    rw [load_rich ctx hp hre name hname tpl ho tail] at hload
    simpa using hload.symm
  subst hgs
  refine object_of E _ _ vars gvars (RichClear E.mf ⟨vars, gvars⟩ tpl) _ ?_ tname lookups ovars olookups inputs hc
  intro d hcl
  obtain ⟨v, hv, hpt⟩ := rich_means ctx E.mf E.gf E.toInt name hname tpl ho hends ⟨vars, gvars⟩ hdef d hcl
  refine ⟨v, hv, ?_, hpt⟩
  obtain ⟨reads, evs, recs, _, _, _, rfl⟩ := hv
  have hk : pathKey E.toInt name ≠ .s anon := by
    unfold pathKey
    split
    · exact fun e => by cases e
    · intro e; exact hname.2.2.1 (Key.s.inj e)
  split
  · simp [formDatum, Dict.get?, pure_ok]
  · simp [formDatum, Dict.get?, hk, pure_ok]

/-! ## A template and texts that meet the hypotheses -/

namespace Ex

/-- patterns, arguments and expressions as in the code, no template variables -/
def richCtx : LoadCtx := ⟨[], getPattern, Args.eval (fun _ => none), ReText.compile, fun _ => false⟩
/-- `name` -/
def xrName : RVar := ⟨c!"name", []⟩
/-- `mtu | DIGIT | to_int | default(1500)` -/
def xrMtu : RVar := ⟨c!"mtu", [fn c!"DIGIT" [], fn c!"to_int" [], fn c!"default" [.int 1500]]⟩
/-- `state | contains("up")` -/
def xrState : RVar := ⟨c!"state", [fn c!"contains" [.str c!"up"]]⟩
/-- `vid | _start_ | PHRASE` -/
def xrVid : RVar := ⟨c!"vid", [fn c!"_start_" [], fn c!"PHRASE" []]⟩
/-- `mark | _end_` -/
def xrMark : RVar := ⟨c!"mark", [fn c!"_end_" []]⟩

/-- `interface {{ name }}` -/
def xr0 : RLine := ⟨[], [.text c!"interface ", .var xrName c!" name "], []⟩
/-- ` mtu {{ mtu | DIGIT | to_int | default(1500) }}` -/
def xr1 : RLine := ⟨c!" ", [.text c!"mtu ", .var xrMtu c!" mtu | DIGIT | to_int | default(1500) "], []⟩
/-- ` state {{ state | contains("up") }}` -/
def xr2 : RLine := ⟨c!" ", [.text c!"state ", .var xrState c!" state | contains(\"up\") "], c!" "⟩
/-- `vlan {{ vid | _start_ | PHRASE }}` -/
def xr3 : RLine := ⟨[], [.text c!"vlan ", .var xrVid c!"vid|_start_|PHRASE"], []⟩
/-- `end {{ mark | _end_ }}` -/
def xr4 : RLine := ⟨[], [.text c!"end ", .var xrMark c!" mark | _end_ "], []⟩
/-- the template -/
def xrTpl : List RLine := [xr0, xr1, xr2, xr3, xr4]

/-- options that stand for themselves when there are no template variables -/
def plainOpt (f : FnCall) : Bool :=
  decide (f.name ∉ [c!"re", c!"chain"]) && (!decide (f.name ∈ patternNames) || f.args.isEmpty) &&
    f.args.all (fun a => match a with | .list _ => false | .dict _ => false | _ => true)

theorem meant_of (ctx : LoadCtx) (hv : ctx.vars = []) (v : RVar) (b : Str) (hw : v.Written ctx b) (h : v.opts.all plainOpt = true) : v.Meant ctx b := by
  have one : ∀ f, plainOpt f = true → Plainly ctx f f := by
    intro f hf
    simp only [plainOpt, Bool.and_eq_true, Bool.or_eq_true, Bool.not_eq_true', decide_eq_true_eq, decide_eq_false_iff_not, List.all_eq_true,
      List.mem_cons, List.not_mem_nil, or_false, not_or] at hf
    obtain ⟨⟨⟨h1, h2⟩, h3⟩, h4⟩ := hf
    have htake : f.args.map (argTaken ctx.vars) = f.args := by
      conv => rhs; rw [← List.map_id f.args]
      apply List.map_congr_left
      intro a _
      rw [hv]
      cases a <;> rfl
    by_cases ha : f.name ∈ argFunctions
    · have := Plainly.arg (ctx := ctx) ha (by
        intro a hm
        have := h4 a hm
        rintro (⟨xs, rfl⟩ | ⟨xs, rfl⟩) <;> cases this)
      rwa [htake] at this
    · by_cases hp : f.name ∈ patternNames
      · have he : f.args = [] := by
          rcases h3 with h3 | h3
          · exact absurd hp h3
          · simpa using h3
        have := Plainly.pattern (ctx := ctx) (f := f) (s := f.name) (by simp [hp]) (Or.inl ⟨he, rfl⟩) hp (by rw [hv]; simp [Dict.keys])
        obtain ⟨n, as, kw⟩ := f
        simp only at he this
        subst he
        exact this
      · exact .self (by simp [h1, h2, ha]) hp
  refine ⟨v.opts, v.opts.map (fun f => [f]), hw, ?_, ?_⟩
  · rw [List.all_eq_true] at h
    generalize v.opts = fs at h ⊢
    induction fs with
    | nil => exact .nil
    | cons f fs ih => exact .cons (.one (one f (h f (by simp)))) (ih (fun x hx => h x (by simp [hx])))
  · generalize v.opts = fs
    induction fs with
    | nil => rfl
    | cons f fs ih => rw [List.map_cons, List.flatten_cons, ← ih]; rfl

theorem rline_ok (indent t0 : Str) (v : RVar) (b trail : Str) (hind : ∀ c ∈ indent, Blank c) (htr : ∀ c ∈ trail, Blank c)
    (ht : t0.all (fun c => c != '{' && (c == ' ' || !isSpace c)) = true)
    (hb : b.all (fun c => c != '}' && (c == ' ' || !isSpace c)) = true) (hv : v.OK) (hm : v.opts.all plainOpt = true) (hw : v.Written richCtx b)
    (hfirst : t0.head?.any (fun c => !isSpace c) = true) (hcom : ¬ c!"##" <+: t0 ++ (c!"{{" ++ b ++ c!"}}"))
    (hex : ¬ c!"_exact_" <:+: indent ++ (t0 ++ (c!"{{" ++ b ++ c!"}}"))) :
    RLine.OK richCtx ⟨indent, [.text t0, .var v b], trail⟩ := by
  have inl : ∀ (s : Str) (p : Char), s.all (fun c => c != p && (c == ' ' || !isSpace c)) = true → p ∉ s ∧ OneLined s := by
    intro s p h
    rw [List.all_eq_true] at h
    constructor
    · intro hm; have := h p hm; simp at this
    · intro c hc
      have := h c hc
      simp only [Bool.and_eq_true, Bool.or_eq_true, beq_iff_eq, Bool.not_eq_true'] at this
      rcases this.2 with h | h
      · exact Or.inl (Or.inl h)
      · exact Or.inr h
  have hbody : (⟨indent, [.text t0, .var v b], trail⟩ : RLine).body = t0 ++ (c!"{{" ++ b ++ c!"}}") := by
    simp [RLine.body, RPiece.source]
  refine ⟨hind, htr, ?_, by simp [Parted], ?_, by simp [varsOf], by simp [varsOf], ?_, ?_, by rw [hbody]; exact hcom, by rw [hbody]; exact hex, by simp⟩
  · intro t hm
    simp only [List.mem_cons, RPiece.text.injEq, reduceCtorEq, List.not_mem_nil, or_false] at hm
    subst hm
    exact inl _ _ ht
  · intro v' b' hm
    simp only [List.mem_cons, reduceCtorEq, RPiece.var.injEq, List.not_mem_nil, or_false, false_or] at hm
    obtain ⟨rfl, rfl⟩ := hm
    exact ⟨hv, meant_of richCtx rfl v' b' hw hm, inl _ _ hb⟩
  · cases t0 with
    | nil => simp at hfirst
    | cons c t => exact ⟨c, t ++ (c!"{{" ++ b ++ c!"}}"), by rw [hbody]; rfl, by simpa using hfirst⟩
  · exact ⟨t0 ++ (c!"{{" ++ b ++ c!"}"), '}', by rw [hbody]; simp, by decide⟩

theorem blank_of (s : Str) (h : s.all (· == ' ') = true) : ∀ c ∈ s, Blank c := by
  intro c hc
  exact Or.inl (by simpa using List.all_eq_true.1 h c hc)

theorem attr_ok (a : AttrText) (h1 : a.name ≠ []) (h2 : a.name.all (fun c => !isSpace c && c != '(' && c != '|') = true)
    (h3 : (a.args.getD []).all (fun c => c != '|' && c != '\n') = true) : a.OK := by
  refine ⟨h1, ?_, ?_⟩
  · intro c hc
    have := List.all_eq_true.1 h2 c hc
    simp at this
    exact ⟨this.1.1, this.1.2, this.2⟩
  · intro o ho
    rw [ho] at h3
    constructor
    · intro hm; have := List.all_eq_true.1 h3 _ hm; simp at this
    · intro hm; have := List.all_eq_true.1 h3 _ hm; simp at this

theorem name_ok (n : Str) (h1 : n ≠ []) (h2 : n.all isWord = true) (h3 : n.head?.all (fun c => !isDigit c) = true) (h4 : n ∉ reserved) :
    n ≠ [] ∧ (∀ c ∈ n, isWord c = true) ∧ (∀ c cs, n = c :: cs → isDigit c = false) ∧ n ∉ reserved := by
  refine ⟨h1, fun c hc => List.all_eq_true.1 h2 c hc, ?_, h4⟩
  rintro c cs rfl
  simpa using h3

theorem spaces_of (s : Str) (h : s.all isSpace = true) : ∀ c ∈ s, isSpace c = true := fun c hc => List.all_eq_true.1 h c hc

theorem xr_ok : ∀ l ∈ xrTpl, l.OK richCtx := by
  intro l hl
  simp only [xrTpl, List.mem_cons, List.not_mem_nil, or_false] at hl
  rcases hl with rfl | rfl | rfl | rfl | rfl
  · refine rline_ok _ _ _ _ _ (blank_of _ (by decide)) (blank_of _ (by decide)) (by decide) (by decide) ⟨name_ok _ (by decide) (by decide) (by decide) (by decide), ?_⟩ (by decide) ?_
      (by decide) (by rw [← List.isPrefixOf_iff_prefix]; decide) (by rw [← contains_iff]; decide)
    · intro f hf; cases hf
    · exact ⟨[], c!" ", c!" ", by decide, spaces_of _ (by decide), (fun i hi => by cases hi), .nil⟩
  · refine rline_ok _ _ _ _ _ (blank_of _ (by decide)) (blank_of _ (by decide)) (by decide) (by decide) ⟨name_ok _ (by decide) (by decide) (by decide) (by decide), ?_⟩ (by decide) ?_
      (by decide) (by rw [← List.isPrefixOf_iff_prefix]; decide) (by rw [← contains_iff]; decide)
    · intro f hf
      simp only [xrMtu, List.mem_cons, List.not_mem_nil, or_false] at hf
      rcases hf with rfl | rfl | rfl
      · exact Or.inl ⟨by decide, rfl⟩
      · exact Or.inr (Or.inr (Or.inr (Or.inr (Or.inr (Or.inl ⟨by decide, by decide⟩)))))
      · exact Or.inr (Or.inl ⟨rfl, _, rfl⟩)
    · refine ⟨[(c!" ", ⟨c!"DIGIT", none⟩, c!" "), (c!" ", ⟨c!"to_int", none⟩, c!" "), (c!" ", ⟨c!"default", some c!"1500"⟩, c!" ")], c!" ", c!" ",
        by decide, spaces_of _ (by decide), ?_, .cons ⟨rfl, rfl, rfl⟩ (.cons ⟨rfl, rfl, rfl⟩ (.cons ⟨rfl, Or.inr ⟨by decide, ?_⟩⟩ .nil))⟩
      · intro i hi
        simp only [List.mem_cons, List.not_mem_nil, or_false] at hi
        rcases hi with rfl | rfl | rfl <;> exact ⟨spaces_of _ (by decide), attr_ok _ (by decide) (by decide) (by decide)⟩
      · show Args.eval (fun _ => none) c!"1500" = _
        decide +kernel
  · refine rline_ok _ _ _ _ _ (blank_of _ (by decide)) (blank_of _ (by decide)) (by decide) (by decide) ⟨name_ok _ (by decide) (by decide) (by decide) (by decide), ?_⟩ (by decide) ?_
      (by decide) (by rw [← List.isPrefixOf_iff_prefix]; decide) (by rw [← contains_iff]; decide)
    · intro f hf
      simp only [xrState, List.mem_cons, List.not_mem_nil, or_false] at hf
      subst hf
      exact Or.inr (Or.inr (Or.inr (Or.inr (Or.inl (by decide)))))
    · refine ⟨[(c!" ", ⟨c!"contains", some c!"\"up\""⟩, c!" ")], c!" ", c!" ",
        by decide, spaces_of _ (by decide), ?_, .cons ⟨rfl, Or.inr ⟨by decide, ?_⟩⟩ .nil⟩
      · intro i hi
        simp only [List.mem_cons, List.not_mem_nil, or_false] at hi
        subst hi
        exact ⟨spaces_of _ (by decide), attr_ok _ (by decide) (by decide) (by decide)⟩
      · show Args.eval (fun _ => none) c!"\"up\"" = _
        decide +kernel
  · refine rline_ok _ _ _ _ _ (blank_of _ (by decide)) (blank_of _ (by decide)) (by decide) (by decide) ⟨name_ok _ (by decide) (by decide) (by decide) (by decide), ?_⟩ (by decide) ?_
      (by decide) (by rw [← List.isPrefixOf_iff_prefix]; decide) (by rw [← contains_iff]; decide)
    · intro f hf
      simp only [xrVid, List.mem_cons, List.not_mem_nil, or_false] at hf
      rcases hf with rfl | rfl
      · exact Or.inr (Or.inr (Or.inl rfl))
      · exact Or.inl ⟨by decide, rfl⟩
    · refine ⟨[([], ⟨c!"_start_", none⟩, []), ([], ⟨c!"PHRASE", none⟩, [])], [], [],
        by decide, spaces_of _ (by decide), ?_, .cons ⟨rfl, rfl, rfl⟩ (.cons ⟨rfl, rfl, rfl⟩ .nil)⟩
      intro i hi
      simp only [List.mem_cons, List.not_mem_nil, or_false] at hi
      rcases hi with rfl | rfl <;> exact ⟨spaces_of _ (by decide), attr_ok _ (by decide) (by decide) (by decide)⟩
  · refine rline_ok _ _ _ _ _ (blank_of _ (by decide)) (blank_of _ (by decide)) (by decide) (by decide) ⟨name_ok _ (by decide) (by decide) (by decide) (by decide), ?_⟩ (by decide) ?_
      (by decide) (by rw [← List.isPrefixOf_iff_prefix]; decide) (by rw [← contains_iff]; decide)
    · intro f hf
      simp only [xrMark, List.mem_cons, List.not_mem_nil, or_false] at hf
      subst hf
      exact Or.inr (Or.inr (Or.inr (Or.inl rfl)))
    · refine ⟨[(c!" ", ⟨c!"_end_", none⟩, c!" ")], c!" ", c!" ",
        by decide, spaces_of _ (by decide), ?_, .cons ⟨rfl, rfl, rfl⟩ .nil⟩
      intro i hi
      simp only [List.mem_cons, List.not_mem_nil, or_false] at hi
      subst hi
      exact ⟨spaces_of _ (by decide), attr_ok _ (by decide) (by decide) (by decide)⟩

/-- everything that a line can make of a text -/
def xrCaps (l : RLine) (t : Str) : List (List (Str × Str)) := (Re.run (RichRe l) ('\n' :: (t ++ c!"\n"))).map (·.2.2)

theorem xr_caps (l : RLine) (ho : l.OK richCtx) (t : Str) (ht : '\n' ∉ t) (c : List (Str × Str)) :
    (∃ vals, l.Fits t vals ∧ c = capsOf vals) ↔ c ∈ xrCaps l t := by
  have hr := rich_reader richCtx l ho
  rw [xrCaps, List.mem_map]
  constructor
  · intro h
    obtain ⟨x, hx, e⟩ := hr.complete t [] ht c h
    exact ⟨x, hx, e⟩
  · rintro ⟨h, hm, rfl⟩
    exact hr.sound t [] ht h hm

theorem vals_inj : ∀ (a b : List (RVar × Str)), a.map (·.1) = b.map (·.1) → capsOf a = capsOf b → a = b
  | [], [], _, _ => rfl
  | [], _ :: _, h, _ => by cases h
  | _ :: _, [], h, _ => by cases h
  | (v, u) :: a, (v', u') :: b, h1, h2 => by
    simp only [List.map_cons, List.cons.injEq, capsOf, Prod.mk.injEq] at h1 h2
    obtain ⟨rfl, h1⟩ := h1
    obtain ⟨⟨_, rfl⟩, h2⟩ := h2
    rw [vals_inj a b h1 h2]

/-- a line that is read in one way -/
theorem xr_read (mf : MatchFns) (env : Env) (t : Str) (ht : '\n' ∉ t) (j : Nat) (l : RLine) (hj : xrTpl[j]? = some l) (vals : List (RVar × Str))
    (hv : vals.map (·.1) = varsOf l.pieces) (out : Option (Dict Key Val)) (hval : Valued mf env vals out)
    (h : xrTpl.map (fun l => (xrCaps l t).eraseDups) = (List.range xrTpl.length).map (fun i => if i = j then [capsOf vals] else [])) :
    RichReads mf env xrTpl t (some (j, out)) := by
  have at_i : ∀ (i : Nat) l', xrTpl[i]? = some l' → (xrCaps l' t).eraseDups = if i = j then [capsOf vals] else [] := by
    intro i l' hi
    have h1 := congrArg (fun x => x[i]?) h
    have hil : i < xrTpl.length := (List.getElem?_eq_some_iff.1 hi).1
    simp only [List.getElem?_map, hi, Option.map_some, List.getElem?_range hil, Option.some.injEq] at h1
    exact h1
  have hok := xr_ok l (List.mem_of_getElem? hj)
  obtain ⟨vals0, hf0, e0⟩ := (xr_caps l hok t ht (capsOf vals)).2 (by
    rw [← List.mem_eraseDups, at_i j l hj]; simp)
  have e1 := vals_inj vals0 vals (by rw [fits_vars l t vals0 hf0, hv]) e0.symm
  subst e1
  refine ⟨l, vals0, hj, hf0, hval, ?_⟩
  intro i l' vals' hi hf'
  have hm := (xr_caps l' (xr_ok l' (List.mem_of_getElem? hi)) t ht (capsOf vals')).1 ⟨vals', hf', rfl⟩
  rw [← List.mem_eraseDups, at_i i l' hi] at hm
  by_cases hij : i = j
  · subst hij
    rw [hj] at hi
    cases hi
    simp only [if_true, List.mem_singleton] at hm
    exact ⟨rfl, vals_inj _ _ (by rw [fits_vars l t vals' hf', hv]) hm⟩
  · rw [if_neg hij] at hm; cases hm

/-- a line that is not read -/
theorem xr_none (mf : MatchFns) (env : Env) (t : Str) (ht : '\n' ∉ t) (h : xrTpl.map (fun l => (xrCaps l t).isEmpty) = [true, true, true, true, true]) :
    RichReads mf env xrTpl t none := by
  intro l hl vals hf
  have hm := (xr_caps l (xr_ok l hl) t ht (capsOf vals)).1 ⟨vals, hf, rfl⟩
  have : (xrCaps l t).isEmpty = true := by
    have h1 : (xrCaps l t).isEmpty ∈ xrTpl.map (fun l => (xrCaps l t).isEmpty) := List.mem_map.2 ⟨l, hl, rfl⟩
    rw [h] at h1
    simpa using h1
  rw [List.isEmpty_iff] at this
  rw [this] at hm
  cases hm

/-- the text -/
def xrText : Str := c!"hello\n mtu 1\ninterface a\n state up1\n mtu 9000\n mtu x\nend x\n state up2\nvlan 10 20\n state down"

/-- how its lines are read -/
def xrReads : Readings :=
  [none, some (1, some [(.s c!"mtu", .int 1)]), some (0, some [(.s c!"name", .str c!"a")]), some (2, some [(.s c!"state", .str c!"up1")]),
   some (1, some [(.s c!"mtu", .int 9000)]), none, some (4, some [(.s c!"mark", .str c!"x")]), some (2, some [(.s c!"state", .str c!"up2")]),
   some (3, some [(.s c!"vid", .str c!"10 20")]), some (2, none)]


theorem xrReads_ok : All2 (RichReads (MatchFn.builtin W1) ⟨[], []⟩ xrTpl) (splitC '\n' xrText) xrReads := by
  have hs : splitC '\n' xrText = [c!"hello", c!" mtu 1", c!"interface a", c!" state up1", c!" mtu 9000", c!" mtu x", c!"end x", c!" state up2",
      c!"vlan 10 20", c!" state down"] := by decide +kernel
  rw [hs]
  refine .cons ?_ (.cons ?_ (.cons ?_ (.cons ?_ (.cons ?_ (.cons ?_ (.cons ?_ (.cons ?_ (.cons ?_ (.cons ?_ .nil)))))))))
  · exact xr_none _ _ _ (by decide) (by decide +kernel)
  · exact xr_read _ _ _ (by decide) 1 xr1 rfl [(xrMtu, c!"1")] rfl _
      (.go (.go (f := fn c!"to_int" []) (fl := .nothing) (w := .int 1) rfl (Or.inl rfl) (.done _)) .nil) (by decide +kernel)
  · exact xr_read _ _ _ (by decide) 0 xr0 rfl [(xrName, c!"a")] rfl _ (.go (.done _) .nil) (by decide +kernel)
  · exact xr_read _ _ _ (by decide) 2 xr2 rfl [(xrState, c!"up1")] rfl _
      (.go (.go (f := fn c!"contains" [.str c!"up"]) (fl := .yes) (w := .str c!"up1") rfl (Or.inr rfl) (.done _)) .nil) (by decide +kernel)
  · exact xr_read _ _ _ (by decide) 1 xr1 rfl [(xrMtu, c!"9000")] rfl _
      (.go (.go (f := fn c!"to_int" []) (fl := .nothing) (w := .int 9000) rfl (Or.inl rfl) (.done _)) .nil) (by decide +kernel)
  · exact xr_none _ _ _ (by decide) (by decide +kernel)
  · exact xr_read _ _ _ (by decide) 4 xr4 rfl [(xrMark, c!"x")] rfl _ (.go (.done _) .nil) (by decide +kernel)
  · exact xr_read _ _ _ (by decide) 2 xr2 rfl [(xrState, c!"up2")] rfl _
      (.go (.go (f := fn c!"contains" [.str c!"up"]) (fl := .yes) (w := .str c!"up2") rfl (Or.inr rfl) (.done _)) .nil) (by decide +kernel)
  · exact xr_read _ _ _ (by decide) 3 xr3 rfl [(xrVid, c!"10 20")] rfl _ (.go (.done _) .nil) (by decide +kernel)
  · exact xr_read _ _ _ (by decide) 2 xr2 rfl [(xrState, c!"down")] rfl _
      (.no (.no (f := fn c!"contains" [.str c!"up"]) (w := .str c!"down") rfl)) (by decide +kernel)

theorem all2_mem_left {α β : Type} {R : α → β → Prop} : ∀ {xs : List α} {ys : List β}, All2 R xs ys → ∀ x ∈ xs, ∃ y, R x y
  | _, _, .nil, _, h => by cases h
  | _, _, .cons hr ht, x, h => by
    rcases List.mem_cons.1 h with rfl | h
    · exact ⟨_, hr⟩
    · exact all2_mem_left ht x h

theorem xr_clear : RichClear (MatchFn.builtin W1) ⟨[], []⟩ xrTpl xrText := fun t ht => all2_mem_left xrReads_ok t ht

theorem xr_ends : EndsPlain xrTpl := by
  intro j l hj _ v hv
  have hlt := (List.getElem?_eq_some_iff.1 hj).1
  match j, hj, hlt with
  | 0, hj, _ => cases hj; simp [xr0, varsOf] at hv; subst hv; rfl
  | 1, hj, _ => cases hj; contradiction
  | 2, hj, _ => cases hj; contradiction
  | 3, hj, _ => cases hj; contradiction
  | 4, hj, _ => cases hj; simp [xr4, varsOf] at hv; subst hv; rfl
  | n + 5, _, h => exact absurd h (by simp [xrTpl])

theorem xr_dflts : DefaultsPlain ⟨[], []⟩ xrTpl := by
  intro kv _ s _
  exact ⟨by simp [Dict.keys], by simp [Dict.keys]⟩

end Ex

/-- the hypotheses of C151 are met -/
example : GroupName c!"interfaces" ∧ (∀ l ∈ Ex.xrTpl, l.OK Ex.richCtx) ∧ EndsPlain Ex.xrTpl ∧ DefaultsPlain ⟨[], []⟩ Ex.xrTpl ∧
    RichClear (MatchFn.builtin W1) ⟨[], []⟩ Ex.xrTpl Ex.xrText :=
  ⟨⟨by decide, by decide, by decide, by decide⟩, Ex.xr_ok, Ex.xr_ends, Ex.xr_dflts, Ex.xr_clear⟩

/-- What the example means: the line ` mtu 1` before the first start is ignored, the functions are applied, ` mtu x` is no line of the
template, lines after `end x` are ignored, the rejected state of the second record is left out, and its `mtu` is the default. -/
theorem C151_example : RichMeans (MatchFn.builtin W1) ⟨[], []⟩ c!"interfaces" false Ex.xrTpl Ex.xrText
    (.dict [(.s c!"interfaces", .list [
        .dict [(.s c!"name", .str c!"a"), (.s c!"state", .str c!"up1"), (.s c!"mtu", .int 9000)],
        .dict [(.s c!"vid", .str c!"10 20"), (.s c!"mtu", .int 1500)]])]) := by
  refine ⟨Ex.xrReads, _, [[(.s c!"name", .str c!"a"), (.s c!"state", .str c!"up1"), (.s c!"mtu", .int 9000)],
    [(.s c!"vid", .str c!"10 20"), (.s c!"mtu", .int 1500)]], Ex.xrReads_ok, Or.inr ⟨?_, rfl⟩, ?_, rfl⟩
  · rintro ⟨h, _⟩
    exact h (some (0, some [(.s c!"name", .str c!"a")])) (by decide +kernel) (by show kindAt _ 0 = _; decide +kernel)
  · have e : segments ((Ex.xrReads.filterMap id).filterMap (richEv Ex.xrTpl)) =
        [([(.s c!"name", .str c!"a")], [[(.s c!"state", .str c!"up1")], [(.s c!"mtu", .int 9000)]]), ([(.s c!"vid", .str c!"10 20")], [])] := by
      decide +kernel
    have ed : richDefaults Ex.xrTpl = [(.s c!"mtu", .int 1500)] := by decide +kernel
    rw [e, ed]
    refine .cons ?_ (.cons ?_ .nil)
    · intro k
      simp only [Dict.get?, List.cons_append, List.nil_append, List.findSome?_cons, List.findSome?_nil]
      by_cases h1 : Key.s c!"name" = k
      · simp [h1]
      · by_cases h2 : Key.s c!"state" = k
        · simp [h1, h2]
        · by_cases h3 : Key.s c!"mtu" = k <;> simp [h1, h2, h3]
    · intro k
      simp only [Dict.get?, List.cons_append, List.nil_append, List.findSome?_cons, List.findSome?_nil]
      by_cases h1 : Key.s c!"vid" = k
      · simp [h1]
      · by_cases h3 : Key.s c!"mtu" = k <;> simp [h1, h3]

/-- the XML element of the example is the template as it is written -/
example : (richXml c!"interfaces*" Ex.xrTpl none).text = some c!"\ninterface {{ name }}\n mtu {{ mtu | DIGIT | to_int | default(1500) }}\n state {{ state | contains(\"up\") }} \nvlan {{vid|_start_|PHRASE}}\nend {{ mark | _end_ }}\n" := by
  decide +kernel

/-! ## The meaning is unique -/

theorem judged_det {mf : MatchFns} {env : Env} : ∀ {fs : List FnCall} {v : Val} {a b : Option Val}, Judged mf env fs v a → Judged mf env fs v b → a = b := by
  intro fs v a b h
  induction h generalizing b with
  | done v => intro h; cases h; rfl
  | go h1 hf _ ih =>
    intro h
    cases h with
    | go g1 _ g2 => rw [h1] at g1; cases g1; exact ih g2
    | no g1 => rw [h1] at g1; cases g1; rcases hf with e | e <;> cases e
  | no h1 =>
    intro h
    cases h with
    | go g1 hf g2 => rw [h1] at g1; cases g1; rcases hf with e | e <;> cases e
    | no g1 => rfl

theorem valued_det {mf : MatchFns} {env : Env} : ∀ {vals : List (RVar × Str)} {a b : Option (Dict Key Val)}, Valued mf env vals a → Valued mf env vals b → a = b := by
  intro vals a b h
  induction h generalizing b with
  | nil => intro h; cases h; rfl
  | go h1 _ ih =>
    intro h
    cases h with
    | go g1 g2 => cases judged_det h1 g1; cases ih g2; rfl
    | no g1 => cases judged_det h1 g1
    | later g1 g2 => cases ih g2
  | no h1 =>
    intro h
    cases h with
    | go g1 g2 => cases judged_det h1 g1
    | no g1 => rfl
    | later g1 g2 => rfl
  | later h1 _ ih =>
    intro h
    cases h with
    | go g1 g2 => cases ih g2
    | no g1 => rfl
    | later g1 g2 => rfl

theorem richReads_det {mf : MatchFns} {env : Env} {tpl : List RLine} {t : Str} {a b : Option (Nat × Option (Dict Key Val))}
    (ha : RichReads mf env tpl t a) (hb : RichReads mf env tpl t b) : a = b := by
  cases a with
  | none =>
    cases b with
    | none => rfl
    | some b => obtain ⟨l, vals, h1, h2, _⟩ := hb; exact absurd h2 (ha l (List.mem_of_getElem? h1) vals)
  | some a =>
    obtain ⟨l, vals, h1, h2, h3, h4⟩ := ha
    cases b with
    | none => exact absurd h2 (hb l (List.mem_of_getElem? h1) vals)
    | some b =>
      obtain ⟨l', vals', g1, g2, g3, _⟩ := hb
      obtain ⟨e1, e2⟩ := h4 _ _ _ g1 g2
      subst e2
      exact congrArg some (Prod.ext e1.symm (valued_det h3 g3))

theorem all2_det {α β : Type} {R : α → β → Prop} (hR : ∀ x a b, R x a → R x b → a = b) :
    ∀ {xs : List α} {as bs : List β}, All2 R xs as → All2 R xs bs → as = bs
  | _, _, _, .nil, .nil => rfl
  | _, _, _, .cons h t, .cons h' t' => by rw [hR _ _ _ h h', all2_det hR t t']

theorem all2_same {α β : Type} {R : α → β → Prop} {Q : β → β → Prop} (hR : ∀ x a b, R x a → R x b → Q a b) :
    ∀ {xs : List α} {as bs : List β}, All2 R xs as → All2 R xs bs → All2 Q as bs
  | _, _, _, .nil, .nil => .nil
  | _, _, _, .cons h t, .cons h' t' => .cons (hR _ _ _ h h') (all2_same hR t t')

/-- every value is equal to itself -/
theorem same_refl : (v : Val) → SameVal v v
  | .none => .none
  | .bool b => .bool b
  | .int n => .int n
  | .flt t => .flt t
  | .str s => .str s
  | .list a => .list rfl (by
      intro i x y hx hy
      rw [hx] at hy
      cases hy
      have := List.sizeOf_lt_of_mem (List.mem_of_getElem? hx)
      exact same_refl x)
  | .dict a => .dict (fun _ => Iff.rfl) (by
      intro k x y hx hy
      rw [hx] at hy
      cases hy
      have h1 := List.sizeOf_lt_of_mem (Dict.mem_of_get? _ _ _ hx)
      have h2 : sizeOf (k, x) = 1 + sizeOf k + sizeOf x := rfl
      exact same_refl x)
termination_by v => sizeOf v
decreasing_by all_goals simp_wf <;> omega

/-- C151: a text has one meaning, up to the order of the keys of the records. -/
theorem C151_one_meaning (mf : MatchFns) (env : Env) (name : Str) (toInt : Bool) (tpl : List RLine) (d : Str) (v w : Val)
    (hv : RichMeans mf env name toInt tpl d v) (hw : RichMeans mf env name toInt tpl d w) : SameVal v w := by
  obtain ⟨r1, e1, c1, h1, h2, h3, rfl⟩ := hv
  obtain ⟨r2, e2, c2, g1, g2, g3, rfl⟩ := hw
  have hr := all2_det (R := RichReads mf env tpl) (fun _ _ _ ha hb => richReads_det ha hb) h1 g1
  subst hr
  have he : e1 = e2 := by
    rcases h2 with ⟨a, b, c⟩ | ⟨a, c⟩ <;> rcases g2 with ⟨a', b', c'⟩ | ⟨a', c'⟩
    · rw [c, c']
    · exact absurd ⟨a, b⟩ a'
    · exact absurd ⟨a', b'⟩ a
    · rw [c, c']
  subst he
  have hs : All2 (fun a b : Dict Key Val => ∀ k, Dict.get? a k = Dict.get? b k) c1 c2 :=
    all2_same (fun x a b ha hb k => by rw [ha k, hb k]) h3 g3
  have hlen := all2_len hs
  have hnil : c1 = [] ↔ c2 = [] := by rw [← List.length_eq_zero_iff, ← List.length_eq_zero_iff, hlen]
  by_cases hc : c1 = []
  · rw [if_pos hc, if_pos (hnil.1 hc)]
    exact .dict (by intro k; simp [Dict.get?]) (by intro k x y h; simp [Dict.get?] at h)
  · rw [if_neg hc, if_neg (fun h => hc (hnil.2 h))]
    refine .dict (by intro k; simp only [Dict.get?]; by_cases h : pathKey toInt name = k <;> simp [h]) ?_
    intro k x y hx hy
    simp only [Dict.get?] at hx hy
    by_cases h : pathKey toInt name = k
    · simp only [h, if_true, Option.some.injEq] at hx hy
      subst hx hy
      refine .list (by simp [hlen]) ?_
      intro i x y hx hy
      simp only [List.getElem?_map, Option.map_eq_some_iff] at hx hy
      obtain ⟨a, ha, rfl⟩ := hx
      obtain ⟨b, hb, rfl⟩ := hy
      obtain ⟨b', hb', hab⟩ := all2_get hs i a ha
      rw [hb] at hb'
      cases hb'
      refine .dict (by intro k; rw [hab k]) ?_
      intro k x y hx hy
      rw [hab k, hy] at hx
      cases hx
      exact same_refl _
    · simp [h] at hx

/-! ## End lines -/

/-- the hypotheses of `C10_with_ends` are met: a record, an end line, a line that is ignored, another record -/
example : (∀ h ∈ [(Ex.reStart, some (Ex.kv c!"name" c!"Lo0")), (Ex.reEnd, some (Ex.kv c!"mark" c!"x")), (Ex.reAdd, some (Ex.kv c!"descr" c!"lost")),
      (Ex.reStart, some (Ex.kv c!"name" c!"Lo1")), (Ex.reAdd, some (Ex.kv c!"descr" c!"b"))],
      OfGroupE Ex.gI [c!"interfaces*"] [(.s c!"mtu", .str c!"1500")] h) ∧
    segments ([(Ex.reStart, some (Ex.kv c!"name" c!"Lo0")), (Ex.reEnd, some (Ex.kv c!"mark" c!"x")), (Ex.reAdd, some (Ex.kv c!"descr" c!"lost")),
      (Ex.reStart, some (Ex.kv c!"name" c!"Lo1")), (Ex.reAdd, some (Ex.kv c!"descr" c!"b"))].map evOfE) =
      [(Ex.kv c!"name" c!"Lo0", []), (Ex.kv c!"name" c!"Lo1", [Ex.kv c!"descr" c!"b"])] := by
  refine ⟨?_, by decide⟩
  have wf : ∀ k v, Dict.WF (Ex.kv k v) := fun k v => by simp [Ex.kv, Dict.WF, Dict.keys]
  intro h hh
  simp only [List.mem_cons, List.mem_nil_iff, or_false] at hh
  rcases hh with rfl | rfl | rfl | rfl | rfl
  · exact ⟨rfl, rfl, rfl, rfl, rfl, Or.inl rfl, by intro d e; cases e; exact wf _ _⟩
  · exact ⟨rfl, rfl, rfl, rfl, rfl, Or.inr ⟨Or.inr rfl, by decide⟩, by intro d e; cases e; exact wf _ _⟩
  · exact ⟨rfl, rfl, rfl, rfl, rfl, Or.inr ⟨Or.inl rfl, by decide⟩, by intro d e; cases e; exact wf _ _⟩
  · exact ⟨rfl, rfl, rfl, rfl, rfl, Or.inl rfl, by intro d e; cases e; exact wf _ _⟩
  · exact ⟨rfl, rfl, rfl, rfl, rfl, Or.inr ⟨Or.inl rfl, by decide⟩, by intro d e; cases e; exact wf _ _⟩

namespace Ex
/-- a group whose end line has a condition: `end {{ mark | contains("x") | _end_ }}` -/
def endXml : Xml := .mk c!"group" [(c!"name", c!"g*")]
  (some c!"\ninterface {{ name }}\n mtu {{ mtu }}\nend {{ mark | contains(\"x\") | _end_ }}\n") [] none
/-- load it and parse the text -/
def endRun (d : Str) : PyM Val := do
  let gs ← loadGroups richCtx c!"." 0 0 [endXml]
  (parseText (MatchFn.builtin W1) gf0 false [] (gs.map (·.grp)) (dataText d) ⟨[], []⟩ (.dict [])).map (·.results)
end Ex

/-- Why end lines must have no conditions in C151: an end line whose value is rejected still ends the search if it is the last one of
the text, but not if there is another record after it: the first record has an `mtu` or not, depending on the text behind it. -/
theorem C151_rejected_end :
    Ex.endRun c!"interface a\nend y\n mtu 1" = .ok (.dict [(.s c!"g", .list [.dict [(.s c!"name", .str c!"a")]])]) ∧
    Ex.endRun c!"interface a\nend y\n mtu 1\ninterface b" = .ok (.dict [(.s c!"g", .list [
      .dict [(.s c!"mtu", .str c!"1"), (.s c!"name", .str c!"a")], .dict [(.s c!"name", .str c!"b")]])]) := by
  constructor <;> decide +kernel

end Props
