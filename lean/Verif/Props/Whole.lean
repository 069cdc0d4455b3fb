import Verif.Proofs.Whole3
import Verif.Props.Object
/-!
# C78: what a simple template makes of a text, end to end

From the XML element of a group and the text to the results, through the loader, the line compiler, the search, the results machine
and the parser object.
-/

namespace Props
open Py Spec TTP

/-! ## Lemmas -/

theorem mem_segments (evs : List Ev) (seg) (h : seg ∈ segments evs) : Ev.start seg.1 ∈ evs := by
  induction evs with
  | nil => cases h
  | cons e evs ih =>
    cases e with
    | start d =>
      simp only [segments, List.mem_cons] at h
      rcases h with rfl | h
      · simp
      · exact List.mem_cons_of_mem _ (ih h)
    | badStart => exact List.mem_cons_of_mem _ (ih h)
    | line d => exact List.mem_cons_of_mem _ (ih h)

theorem mem_evsOf_start (rs : List (Option (Nat × List (Str × Str)))) (d : Dict Key Val) (h : Ev.start d ∈ evsOf rs) :
    ∃ v, some (0, v) ∈ rs ∧ d = recOf v := by
  induction rs with
  | nil => cases h
  | cons r rs ih =>
    match r with
    | none => obtain ⟨v, h1, h2⟩ := ih h; exact ⟨v, by simp [h1], h2⟩
    | some (0, v) =>
      simp only [evsOf, List.mem_cons, Ev.start.injEq] at h
      rcases h with rfl | h
      · exact ⟨v, by simp, rfl⟩
      · obtain ⟨v, h1, h2⟩ := ih h; exact ⟨v, by simp [h1], h2⟩
    | some (j + 1, v) =>
      simp only [evsOf, List.mem_cons, reduceCtorEq, false_or] at h
      obtain ⟨v, h1, h2⟩ := ih h; exact ⟨v, by simp [h1], h2⟩

theorem segments_evsOf_drop (rs : List (Option (Nat × List (Str × Str)))) (i : Nat)
    (h : ∀ k v, k < i → rs[k]? ≠ some (some (0, v))) : segments (evsOf rs) = segments (evsOf (rs.drop i)) := by
  induction i generalizing rs with
  | zero => rfl
  | succ i ih =>
    cases rs with
    | nil => rfl
    | cons r rs =>
      have ih' := ih rs (fun k v hk => by have := h (k + 1) v (by omega); simpa using this)
      simp only [List.drop_succ_cons]
      match r with
      | none => exact ih'
      | some (0, v) => exact absurd (by simp) (h 0 v (by omega))
      | some (j + 1, v) => exact ih'

theorem evsOf_filterMap (env : Env) (info : GInfo) (tpl : List TplLine) (rs : List (Option (Nat × List (Str × Str)))) :
    ((rs.filterMap id).map (fun r => toHit env (hitOf info tpl r))).map evOf = evsOf rs := by
  induction rs with
  | nil => rfl
  | cons r rs ih =>
    match r with
    | none => simpa [evsOf] using ih
    | some (0, v) =>
      have e : (some (0, v) :: rs).filterMap id = (0, v) :: rs.filterMap id := by simp
      rw [e, List.map_cons, List.map_cons, ih]
      rfl
    | some (j + 1, v) =>
      have : (rxAt (j + 1) (lineAt tpl (j + 1))).action = .add := tplRx_action _
      have e : (some (j + 1, v) :: rs).filterMap id = (j + 1, v) :: rs.filterMap id := by simp
      rw [e, List.map_cons, List.map_cons, ih]
      simp [evOf, toHit, hitOf, this, evsOf]

theorem saveMany_one (toInt : Bool) (name : Str) (hn : name ≠ c!"_") (recs : List (Dict Key Val)) (hr : ∀ r ∈ recs, r ≠ [])
    (xs : List Val) : saveMany toInt [⟨name, 1⟩] recs (.dict [(pathKey toInt name, .list xs)]) =
      .ok (.dict [(pathKey toInt name, .list (xs ++ recs.map .dict))]) := by
  have hk : keyOf toInt name = pathKey toInt name := by simp [keyOf, pathKey]
  induction recs generalizing xs with
  | nil => simp [saveMany, pure_ok]
  | cons r recs ih =>
    have hne : (r.isEmpty) = false := by
      cases r with
      | nil => exact absurd rfl (hr [] (by simp))
      | cons => rfl
    have hs : save toInt false (.dict r) [⟨name, 1⟩] (.dict [(pathKey toInt name, .list xs)]) =
        .ok (.dict [(pathKey toInt name, .list (xs ++ [.dict r]))]) := by
      simp [save, modAt, onLast, nullName, hn, enterKey, hk, Dict.has, Dict.get?, saveElem, Val.truthy, hne, Dict.set, pure_ok, ok_bind]
    have := ih (fun r' h' => hr r' (by simp [h'])) (xs ++ [.dict r])
    simp only [saveMany, List.foldlM_cons, hs, ok_bind] at this ⊢
    rw [this]; simp

theorem saveMany_fresh (toInt : Bool) (name : Str) (hn : name ≠ c!"_") (recs : List (Dict Key Val)) (hr : ∀ r ∈ recs, r ≠ []) :
    saveMany toInt [⟨name, 1⟩] recs (.dict []) =
      .ok (if recs = [] then .dict [] else .dict [(pathKey toInt name, .list (recs.map .dict))]) := by
  have hk : keyOf toInt name = pathKey toInt name := by simp [keyOf, pathKey]
  cases recs with
  | nil => simp [saveMany, pure_ok]
  | cons r recs =>
    have hne : (r.isEmpty) = false := by
      cases r with
      | nil => exact absurd rfl (hr [] (by simp))
      | cons => rfl
    have hs : save toInt false (.dict r) [⟨name, 1⟩] (.dict []) = .ok (.dict [(pathKey toInt name, .list [.dict r])]) := by
      simp [save, modAt, onLast, nullName, hn, enterKey, hk, Dict.has, Dict.get?, saveElem, Val.truthy, hne, Dict.set, pure_ok, ok_bind,
        freshDict, Dict.update]
    have := saveMany_one toInt name hn recs (fun r' h' => hr r' (by simp [h'])) [.dict r]
    simp only [saveMany, List.foldlM_cons, hs, ok_bind] at this ⊢
    rw [this]; simp

theorem recOf_WF (v : List (Str × Str)) (h : (v.map Prod.fst).Nodup) : Dict.WF (recOf v) := by
  unfold Dict.WF recOf Dict.keys
  rw [List.map_map]
  have : ((fun x : Key × Val => x.1) ∘ fun nv : Str × Str => (Key.s nv.1, Val.str nv.2)) = Key.s ∘ Prod.fst := rfl
  show (v.map (Key.s ∘ Prod.fst)).Nodup
  rw [← List.map_map]
  exact List.Pairwise.map _ (fun a b hab e => hab (Key.s.inj e)) h

theorem record_ne (seg : Dict Key Val × List (Dict Key Val)) (r : Dict Key Val) (h : IsRecordOf [] seg r) (hs : seg.1 ≠ []) : r ≠ [] := by
  rintro rfl
  obtain ⟨a, as, e⟩ := List.exists_cons_of_ne_nil hs
  have := h a.1
  rw [e] at this
  simp [Dict.get?] at this

theorem records_ne (segs : List (Dict Key Val × List (Dict Key Val))) (recs : List (Dict Key Val)) (h : All2 (IsRecordOf []) segs recs)
    (hs : ∀ seg ∈ segs, seg.1 ≠ []) : ∀ r ∈ recs, r ≠ [] := by
  induction h with
  | nil => intro r hr; cases hr
  | cons hab _ ih =>
    intro r hr
    rcases List.mem_cons.1 hr with rfl | hr
    · exact record_ne _ _ hab (hs _ (by simp))
    · exact ih (fun seg hs' => hs seg (by simp [hs'])) r hr

/-! ## One text -/

/-- the records of a text are saved one after the other at the path of the group -/
theorem parse_tpl_any (mf : MatchFns) (gf : GroupFns) (toInt : Bool) (gname : Str) (hname : '{' ∉ gname) (l : TplLine) (tpl : List TplLine)
    (ho : ∀ l' ∈ l :: tpl, l'.OK) (lines : List Str) (hne : lines ≠ []) (hl : ∀ t ∈ lines, '\n' ∉ t)
    (reads : List (Option (Nat × List (Str × Str)))) (hr : All2 (Reads (l :: tpl)) lines reads) (env : Env) :
    ∃ recs, All2 (IsRecordOf []) (segments (evsOf reads)) recs ∧ (∀ r ∈ recs, Dict.WF r ∧ r ≠ []) ∧
      (parseText mf gf toInt [] [tplGrp gname l tpl] (dataText (join c!"\n" lines)) env (.dict [])).map (·.results) =
        saveMany toInt (parsePath [gname]) recs (.dict []) := by
  -- a start that is read fits the first line
  have hfit : ∀ (k : Nat) v, reads[k]? = some (some (0, v)) → ∃ t, lines[k]? = some t ∧ l.Fits t v := by
    intro k v hk
    have hlen := all2_len hr
    have hklt : k < reads.length := (List.getElem?_eq_some_iff.1 hk).1
    obtain ⟨r, hr1, hr2⟩ := all2_get hr k lines[k] (List.getElem?_eq_getElem (by omega))
    rw [hk] at hr1
    cases hr1
    obtain ⟨⟨l', e, hf⟩, _⟩ := hr2
    simp only [List.getElem?_cons_zero, Option.some.injEq] at e
    subst e
    exact ⟨lines[k], List.getElem?_eq_getElem (by omega), hf⟩
  by_cases hex : ∃ t ∈ lines, ∃ v, l.Fits t v
  · -- the first start
    obtain ⟨i, hi, hmin⟩ : ∃ i : Nat, (∃ t v, lines[i]? = some t ∧ l.Fits t v) ∧ ∀ (k : Nat) t v, lines[k]? = some t → l.Fits t v → i ≤ k := by
      clear hfit hr hne hl
      induction lines with
      | nil => obtain ⟨t, ht, _⟩ := hex; cases ht
      | cons t0 ts ih =>
        by_cases h0 : ∃ v, l.Fits t0 v
        · obtain ⟨v, hv⟩ := h0
          exact ⟨0, ⟨t0, v, by simp, hv⟩, fun k _ _ _ _ => Nat.zero_le k⟩
        · have : ∃ t ∈ ts, ∃ v, l.Fits t v := by
            obtain ⟨t, ht, hv⟩ := hex
            rcases List.mem_cons.1 ht with rfl | ht
            · exact absurd hv h0
            · exact ⟨t, ht, hv⟩
          obtain ⟨i, ⟨t, v, h1, h2⟩, h3⟩ := ih this
          refine ⟨i + 1, ⟨t, v, by simpa using h1, h2⟩, ?_⟩
          intro k t' v' hk hf
          cases k with
          | zero => simp only [List.getElem?_cons_zero, Option.some.injEq] at hk; subst hk; exact absurd ⟨v', hf⟩ h0
          | succ k => have := h3 k t' v' (by simpa using hk) hf; omega
    have hilt : i < lines.length := by obtain ⟨t, v, h1, _⟩ := hi; exact (List.getElem?_eq_some_iff.1 h1).1
    have hrun := runRe_tpl mf gname l tpl ho lines hne hl i hi hmin env
    have hsort := sortRaw_tpl (tplInfo gname) l tpl ho lines hl reads hr i hilt hmin
    have hlen : (lines.drop i).length = (reads.drop i).length := by simp [all2_len hr]
    have hph := placedHits_hits (tplInfo gname) (l :: tpl) (lines.drop i) (reads.drop i) (posOf lines i) hlen
    -- the hits
    let hits : List TTP.Hit := ((reads.drop i).filterMap id).map (fun r => toHit env (hitOf (tplInfo gname) (l :: tpl) r))
    have hraw : (sortRaw (logDict [] (grpLog (tplInfo gname) l tpl lines i))).map (fun kv => kv.2.map (toHit env)) = hits.map ([·]) := by
      rw [hsort]
      have : (placedHits (tplInfo gname) (l :: tpl) (posOf lines i) (lines.drop i) (reads.drop i)).map (fun kv => kv.2.map (toHit env)) =
          ((placedHits (tplInfo gname) (l :: tpl) (posOf lines i) (lines.drop i) (reads.drop i)).map Prod.snd).map (List.map (toHit env)) := by
        rw [List.map_map]; rfl
      rw [this, hph]
      simp [hits, List.map_map, Function.comp_def]
    have hnonempty : (logDict [] (grpLog (tplInfo gname) l tpl lines i)).isEmpty = false := by
      cases he : logDict [] (grpLog (tplInfo gname) l tpl lines i) with
      | cons => rfl
      | nil =>
        exfalso
        obtain ⟨t, v, h1, h2⟩ := hi
        obtain ⟨r, hr1, hr2⟩ := all2_get hr i t h1
        have hat := atPos_grpLog (tplInfo gname) l tpl ho lines hl i i t (Nat.le_refl _) h1 r hr2
        cases r with
        | none => exact hr2 l (by simp) v h2
        | some r =>
          have := (mem_logDict (grpLog (tplInfo gname) l tpl lines i) (posOf lines i) _).2 ⟨hat.symm, by simp⟩
          rw [he] at this; cases this
    -- reads of the first template line have its variables
    have hnames : ∀ j v, (∃ k : Nat, reads[k]? = some (some (j, v))) → ∃ l' ∈ l :: tpl, v.map Prod.fst = tokNames l'.items := by
      rintro j v ⟨k, hk⟩
      have hlen := all2_len hr
      have hklt : k < reads.length := (List.getElem?_eq_some_iff.1 hk).1
      obtain ⟨r, hr1, hr2⟩ := all2_get hr k lines[k] (List.getElem?_eq_getElem (by omega))
      rw [hk] at hr1
      cases hr1
      obtain ⟨⟨l', e, hf⟩, _⟩ := hr2
      exact ⟨l', List.mem_of_getElem? e, fits_names l' _ _ hf⟩
    have hof : ∀ h ∈ hits, OfGroup (gname, 0) [gname] [] h := by
      intro h hh
      simp only [hits, List.mem_map, List.mem_filterMap, id, exists_eq_right] at hh
      obtain ⟨⟨j, v⟩, hm, rfl⟩ := hh
      obtain ⟨k, hk⟩ := List.getElem?_of_mem hm
      rw [List.getElem?_drop] at hk
      obtain ⟨l', hl', hv⟩ := hnames j v ⟨_, hk⟩
      refine ⟨rfl, rfl, rfl, ?_, rfl, ?_, ?_⟩
      · have : ∀ dd : Dict Str Val, updateRuns [] dd = [] := by
          intro dd
          unfold updateRuns
          induction dd with
          | nil => rfl
          | cons a dd ih => simpa using ih
        simp [toHit, hitOf, tplInfo, this]
      · cases j with
        | zero => left; rfl
        | succ j => right; exact ⟨tplRx_action _, by simp [toHit, hitOf]⟩
      · intro d hd
        simp only [toHit, hitOf, Option.some.injEq] at hd
        subst hd
        exact recOf_WF v (by rw [hv]; exact (ho l' hl').names)
    have hst : StaticPath [gname] := by
      intro item hi
      simp only [List.mem_singleton] at hi
      subst hi
      exact hname
    obtain ⟨recs, h1, hwf, h2⟩ := C10_flat_group toInt gf [] env.vars env.gvars (gname, 0) [gname] hst (by simp) [] hits hof (.dict [])
    have hev : segments (hits.map evOf) = segments (evsOf reads) := by
      rw [evsOf_filterMap, ← segments_evsOf_drop reads i]
      intro k v hk hc
      obtain ⟨t, h1, h2⟩ := hfit k v hc
      have := hmin k t v h1 h2
      omega
    rw [hev] at h1
    have hrec : ∀ r ∈ recs, r ≠ [] := by
      have hseg : ∀ seg ∈ segments (evsOf reads), seg.1 ≠ [] := by
        intro seg hs
        obtain ⟨v, hv, e⟩ := mem_evsOf_start _ _ (mem_segments _ _ hs)
        obtain ⟨k, hk⟩ := List.getElem?_of_mem hv
        obtain ⟨t, _, hf⟩ := hfit k v hk
        rw [e]
        intro he
        have hvn : v = [] := by simpa [recOf] using he
        have := fits_names l t v hf
        rw [hvn] at this
        exact (ho l (by simp)).some this.symm
      exact records_ne _ _ h1 hseg
    have hsv : saveVars toInt [] ⟨.dict [], [], [], Record.empty, [], env.vars, env.gvars⟩ =
        .ok ⟨.dict [], [], [], Record.empty, [], env.vars, env.gvars⟩ := by
      simp [saveVars, sorted, saveVarsAll, pure_ok, ok_bind]
    rw [hsv] at h2
    simp only [ok_bind] at h2
    refine ⟨recs, h1, fun r hr => ⟨hwf r hr, hrec r hr⟩, ?_⟩
    simp only [parseText, runGroups, hrun, ok_bind, pure_ok, List.filter_cons, hnonempty, Bool.not_false, if_true, List.filter_nil,
      List.map_cons, List.map_nil, hraw]
    exact h2
  · have hno : ∀ t ∈ lines, ∀ v, ¬ l.Fits t v := fun t ht v hf => hex ⟨t, ht, v, hf⟩
    have hrun := runRe_tpl_none mf gname l tpl ho lines hne hl hno env
    have hseg : segments (evsOf reads) = [] := by
      cases hs : segments (evsOf reads) with
      | nil => rfl
      | cons seg segs =>
        exfalso
        obtain ⟨v, hv, _⟩ := mem_evsOf_start _ _ (mem_segments _ seg (by rw [hs]; simp))
        obtain ⟨k, hk⟩ := List.getElem?_of_mem hv
        obtain ⟨t, ht, hf⟩ := hfit k v hk
        exact hno t (List.mem_of_getElem? ht) v hf
    refine ⟨[], by rw [hseg]; exact .nil, by simp, ?_⟩
    simp only [parseText, runGroups, hrun, ok_bind, pure_ok, List.isEmpty_nil, Bool.not_true, Bool.false_eq_true, if_false,
      List.filter_cons, List.filter_nil, List.map_nil, if_true]
    exact C19_nothing_without_matches toInt gf [] env.vars env.gvars (.dict [])

theorem parsePath_star (name : Str) (h : '*' ∉ name) : parsePath [name ++ c!"*"] = [⟨name, 1⟩] := by
  have hts : trailingStars (name ++ c!"*") = 1 := by
    have hnil : name.reverse.takeWhile (· == '*') = [] := by
      cases hrv : name.reverse with
      | nil => rfl
      | cons c cs =>
        have : c ∈ name := by rw [← List.mem_reverse, hrv]; simp
        rw [List.takeWhile_cons_of_neg]
        simp only [beq_iff_eq]
        rintro rfl
        exact h this
    simp [trailingStars, hnil]
  simp [parsePath, hts]

theorem parse_tpl (mf : MatchFns) (gf : GroupFns) (toInt : Bool) (name : Str) (hname : GroupName name) (l : TplLine) (tpl : List TplLine)
    (ho : ∀ l' ∈ l :: tpl, l'.OK) (lines : List Str) (hne : lines ≠ []) (hl : ∀ t ∈ lines, '\n' ∉ t)
    (reads : List (Option (Nat × List (Str × Str)))) (hr : All2 (Reads (l :: tpl)) lines reads) (env : Env) :
    ∃ recs, All2 (IsRecordOf []) (segments (evsOf reads)) recs ∧
      (parseText mf gf toInt [] [tplGrp (name ++ c!"*") l tpl] (dataText (join c!"\n" lines)) env (.dict [])).map (·.results) =
        .ok (if recs = [] then .dict [] else .dict [(pathKey toInt name, .list (recs.map .dict))]) := by
  obtain ⟨hn1, hn2, _, hn3⟩ := hname
  obtain ⟨recs, h1, h2, h3⟩ := parse_tpl_any mf gf toInt (name ++ c!"*") (by
    simp only [List.mem_append, List.mem_singleton, not_or]
    exact ⟨fun h => (hn3 _ h).2.2.1 rfl, by decide⟩) l tpl ho lines hne hl reads hr env
  refine ⟨recs, h1, ?_⟩
  rw [h3, parsePath_star name (fun h => (hn3 _ h).2.1 rfl), saveMany_fresh toInt name hn2 recs (fun r hr => (h2 r hr).2)]

theorem reads_of_clear (tpl : List TplLine) (lines : List Str) (h : ∀ t ∈ lines, ∃ r, Reads tpl t r) : ∃ reads, All2 (Reads tpl) lines reads := by
  induction lines with
  | nil => exact ⟨[], .nil⟩
  | cons t ts ih =>
    obtain ⟨r, hr⟩ := h t (by simp)
    obtain ⟨rs, hrs⟩ := ih (fun t' h' => h t' (by simp [h']))
    exact ⟨r :: rs, .cons hr hrs⟩

theorem parse_means (mf : MatchFns) (gf : GroupFns) (toInt : Bool) (name : Str) (hname : GroupName name) (l : TplLine) (tpl : List TplLine)
    (ho : ∀ l' ∈ l :: tpl, l'.OK) (d : Str) (hc : Clear (l :: tpl) d) (env : Env) :
    ∃ v, Means name toInt (l :: tpl) d v ∧
      (parseText mf gf toInt [] [tplGrp (name ++ c!"*") l tpl] (dataText d) env (.dict [])).map (·.results) = .ok v := by
  obtain ⟨reads, hr⟩ := reads_of_clear _ _ hc
  obtain ⟨recs, h1, h2⟩ := parse_tpl mf gf toInt name hname l tpl ho (splitC '\n' d) (splitC_ne_nil '\n' d)
    (fun t ht => splitC_no_sep '\n' d t ht) reads hr env
  rw [join_splitC] at h2
  exact ⟨_, ⟨reads, recs, hr, h1, rfl⟩, h2⟩

theorem load_tpl (ctx : LoadCtx) (name : Str) (hname : GroupName name) (l : TplLine) (tpl : List TplLine) (ho : ∀ l' ∈ l :: tpl, l'.OK)
    (tail : Option Str) : loadGroups ctx c!"." 0 0 [groupXml (name ++ c!"*") (l :: tpl) tail] =
      .ok [⟨0, name ++ c!"*", [], tplGrp (name ++ c!"*") l tpl⟩] := by
  obtain ⟨hn1, _, _, hn3⟩ := hname
  apply loadGroups_tpl ctx (name ++ c!"*") (by simp) _ _ l tpl ho tail
  · simp only [List.mem_append, List.mem_singleton, not_or]
    exact ⟨fun h => (hn3 _ h).1 rfl, by decide⟩
  · rintro ⟨r, e⟩
    obtain ⟨c, cs, ec⟩ := List.exists_cons_of_ne_nil hn1
    rw [ec] at e
    simp only [List.cons_append, List.cons.injEq] at e
    exact (hn3 c (by simp [ec])).2.2.2 e.1.symm

/-! ## C78 -/

/-- C78. A template with one group whose lines are made of words and plain variables: loading it succeeds, and for every text in
which no line can be read as two of the template lines, and for all functions and variables around, the search and the results
machine give what the template means. -/
theorem C78_flat_template (ctx : LoadCtx) (mf : MatchFns) (gf : GroupFns) (toInt : Bool) (name : Str) (hname : GroupName name)
    (tpl : List TplLine) (hne : tpl ≠ []) (ho : ∀ l ∈ tpl, l.OK) (tail : Option Str) :
    ∃ gs, loadGroups ctx c!"." 0 0 [groupXml (name ++ c!"*") tpl tail] = .ok gs ∧
      ∀ d, Clear tpl d → ∀ env, ∃ v, Means name toInt tpl d v ∧
        (parseText mf gf toInt [] (gs.map (·.grp)) (dataText d) env (.dict [])).map (·.results) = .ok v := by
  obtain ⟨l, tpl, rfl⟩ := List.exists_cons_of_ne_nil hne
  refine ⟨_, load_tpl ctx name hname l tpl ho tail, ?_⟩
  intro d hc env
  exact parse_means mf gf toInt name hname l tpl ho d hc env

/-- C78, the parser object: the template is loaded, any texts are given to it in any inputs, `parse` with one process succeeds, and
the results of the template are the meanings of the texts, in order. -/
theorem C78_object (ctx : LoadCtx) (E : Engine) (name : Str) (hname : GroupName name) (tpl : List TplLine) (hne : tpl ≠ [])
    (ho : ∀ l ∈ tpl, l.OK) (tail : Option Str) (gs : List TopGroup)
    (hload : loadGroups ctx c!"." 0 0 [groupXml (name ++ c!"*") tpl tail] = .ok gs) (tname : Str) (vars gvars lookups ovars olookups)
    (inputs : Dict Str (List Str)) (hc : ∀ i ∈ inputs, ∀ d ∈ i.2, Clear tpl d) :
    ∃ o vs, parseOne E ⟨[⟨tname, gs, inputs.map (fun i => (i.1, ⟨i.2.map (fun d => ⟨.text, .str d⟩), [0], [], .dict []⟩)), vars, [], [],
        lookups, [], c!"per_input", .list []⟩], ovars, olookups, gvars⟩ = .ok o ∧
      All2 (Means name E.toInt tpl) (inputs.flatMap (·.2)) vs ∧ o.templates.map (·.results) = [.list vs] := by
  obtain ⟨l, tpl, rfl⟩ := List.exists_cons_of_ne_nil hne
  have hgs : gs = [⟨0, name ++ c!"*", [], tplGrp (name ++ c!"*") l tpl⟩] := by
    rw [load_tpl ctx name hname l tpl ho tail] at hload
    simpa using hload.symm
  subst hgs
  -- one text
  have hone : ∀ (t : Tpl) (g : Dict Str Val) (inp : TInput) (d : Str), t.groups = [⟨0, name ++ c!"*", [], tplGrp (name ++ c!"*") l tpl⟩] →
      t.vtr = [] → t.varFns = [] → inp.groups = [0] → inp.functions = [] → Clear (l :: tpl) d →
      ∃ v g', Means name E.toInt (l :: tpl) d v ∧ parseDatum E t inp ⟨.text, .str d⟩ (.dict []) g = .ok (v, g') ∧ formDatum v = .ok v := by
    intro t g inp d h1 h2 h3 h4 h5 hcl
    obtain ⟨v, hv, hp⟩ := parse_means E.mf E.gf E.toInt name hname l tpl ho d hcl ⟨t.vars, g⟩
    cases hpt : parseText E.mf E.gf E.toInt [] [tplGrp (name ++ c!"*") l tpl] (dataText d) ⟨t.vars, g⟩ (.dict []) with
    | error e => rw [hpt] at hp; cases hp
    | ok ms =>
      rw [hpt] at hp
      simp only [Except.map, Except.ok.injEq] at hp
      refine ⟨v, ms.gvars, hv, ?_, ?_⟩
      · simp [parseDatum, dataOf, h1, h2, h3, h4, h5, runVarFns, runInFns, groupsOf, hpt, ok_bind, pure_ok, hp]
      · obtain ⟨reads, recs, _, _, rfl⟩ := hv
        have hk : pathKey E.toInt name ≠ .s anon := by
          unfold pathKey
          split
          · exact fun e => by cases e
          · intro e; exact hname.2.2.1 (Key.s.inj e)
        split
        · simp [formDatum, Dict.get?, pure_ok]
        · simp [formDatum, Dict.get?, hk, pure_ok]
  -- all texts
  have hall : ∀ (t : Tpl), t.groups = [⟨0, name ++ c!"*", [], tplGrp (name ++ c!"*") l tpl⟩] → t.vtr = [] → t.varFns = [] →
      ∀ (jobs : List (TInput × Datum)) (ds : List Str) (g : Dict Str Val),
      All2 (fun j d => j.1.groups = [0] ∧ j.1.functions = [] ∧ j.2 = ⟨.text, .str d⟩) jobs ds → (∀ d ∈ ds, Clear (l :: tpl) d) →
      ∃ vs g', EachOf E t jobs g g' vs ∧ All2 (Means name E.toInt (l :: tpl)) ds vs := by
    intro t h1 h2 h3 jobs ds g hj
    induction hj generalizing g with
    | nil => intro _; exact ⟨[], g, .nil g, .nil⟩
    | @cons j d jobs ds hj _ ih =>
      intro hcl
      obtain ⟨inp, x⟩ := j
      obtain ⟨h4, h5, rfl⟩ := hj
      obtain ⟨v, g1, hm, hp, hf⟩ := hone t g inp d h1 h2 h3 h4 h5 (hcl d (by simp))
      obtain ⟨vs, g2, he, hms⟩ := ih g1 (fun d' h' => hcl d' (by simp [h']))
      exact ⟨v :: vs, g2, .cons hp hf he, .cons hm hms⟩
  generalize ht : (⟨tname, [⟨0, name ++ c!"*", [], tplGrp (name ++ c!"*") l tpl⟩],
    inputs.map (fun i => (i.1, ⟨i.2.map (fun d => ⟨.text, .str d⟩), [0], [], .dict []⟩)), vars, [], [],
    lookups, [], c!"per_input", .list []⟩ : Tpl) = t
  have hjobs : All2 (fun (j : TInput × Datum) d => j.1.groups = [0] ∧ j.1.functions = [] ∧ j.2 = ⟨.text, .str d⟩)
      (t.inputs.flatMap (fun i => i.2.data.map (fun d => (i.2, d)))) (inputs.flatMap (·.2)) := by
    subst ht
    clear hc
    induction inputs with
    | nil => exact .nil
    | cons i is ih =>
      obtain ⟨n, ds⟩ := i
      simp only [List.map_cons, List.flatMap_cons]
      generalize hinp : (⟨ds.map (fun d => ⟨.text, .str d⟩), [0], [], .dict []⟩ : TInput) = inp at *
      have hd : inp.data = ds.map (fun d => ⟨.text, .str d⟩) := by rw [← hinp]
      have h4 : inp.groups = [0] := by rw [← hinp]
      have h5 : inp.functions = [] := by rw [← hinp]
      clear hd hinp
      induction ds with
      | nil => exact ih
      | cons d ds ihd => exact .cons ⟨h4, h5, rfl⟩ ihd
  obtain ⟨vs, g', he, hm⟩ := hall t (by rw [← ht]) (by rw [← ht]) (by rw [← ht]) _ _ gvars hjobs (by
    intro d hd
    obtain ⟨i, hi, hd⟩ := List.mem_flatMap.1 hd
    exact hc i hi d hd)
  have hp := (C33_per_input_entries E t { t with results := .list ([] ++ vs) } gvars g' (by rw [← ht]) [] (by rw [← ht])).2
    ⟨vs, he, by
      have := EachOf_length _ _ _ _ _ _ he
      rw [this]
      simp [List.length_flatMap], rfl⟩
  have hout : runOutputs E { t with results := .list ([] ++ vs) } = .ok { t with results := .list ([] ++ vs) } :=
    runOutputs_nil E _ (by rw [← ht])
  refine ⟨⟨[{ t with results := .list ([] ++ vs) }], ovars, olookups, g'⟩, vs, ?_, hm, by simp⟩
  simp only [parseOne, parseAllOne, hp, ok_bind, pure_ok, runOutputsAll, hout]

/-! A template and a text that meet the hypotheses. -/
namespace Ex

/-- `interface {{ name }}` -/
def wl1 : TplLine := ⟨[], [([], .word c!"interface"), (c!" ", .var [] c!"name" [])], []⟩
/-- ` mtu {{ mtu }}` -/
def wl2 : TplLine := ⟨c!" ", [([], .word c!"mtu"), (c!" ", .var [] c!"mtu" [])], []⟩
/-- a text with two records and a line that means nothing -/
def wtext : Str := c!"interface a\n  mtu 2\n mtu  1\ninterface b"

/-- how the lines of the text are read -/
def wreads : List (Option (Nat × List (Str × Str))) :=
  [some (0, [(c!"name", c!"a")]), none, some (1, [(c!"mtu", c!"1")]), some (0, [(c!"name", c!"b")])]

theorem wl_ok : ∀ l ∈ [wl1, wl2], l.OK := by
  intro l hl
  have w : ∀ s : Str, s ≠ [] → s.all (fun c => !isSpace c) = true → Word s := by
    intro s h1 h2
    exact ⟨h1, fun c hc => by simpa using List.all_eq_true.1 h2 c hc⟩
  simp only [List.mem_cons, List.not_mem_nil, or_false] at hl
  rcases hl with rfl | rfl
  · refine ⟨⟨rfl, ⟨w _ (by decide) (by decide), by decide⟩, ?_⟩, by simp [wl1], by simp [wl1], by decide, by decide, by decide, ?_, ?_⟩
    · intro i hi
      simp only [List.mem_cons, List.not_mem_nil, or_false] at hi
      subst hi
      exact ⟨⟨by decide, by intro c hc; left; simpa using hc⟩, by decide, by decide, by intro c cs e; cases e; decide, by decide, by simp⟩
    · rw [← contains_iff]; decide
    · rw [← List.isPrefixOf_iff_prefix]; decide
  · refine ⟨⟨rfl, ⟨w _ (by decide) (by decide), by decide⟩, ?_⟩, ?_, by simp [wl2], by decide, by decide, by decide, ?_, ?_⟩
    · intro i hi
      simp only [List.mem_cons, List.not_mem_nil, or_false] at hi
      subst hi
      exact ⟨⟨by decide, by intro c hc; left; simpa using hc⟩, by decide, by decide, by intro c cs e; cases e; decide, by decide, by simp⟩
    · intro c hc; left; simpa [wl2] using hc
    · rw [← contains_iff]; decide
    · rw [← List.isPrefixOf_iff_prefix]; decide

/-- fitting can be computed -/
theorem fits_iff (l : TplLine) (ho : l.OK) (t : Str) (ht : '\n' ∉ t) (v : List (Str × Str)) :
    l.Fits t v ↔ v ∈ (Re.finditer (TplRe l) (nlText [t])).map (·.caps) := by
  have h := tplRe_finditer l ho [t] (by simpa using ht)
  rw [List.mem_map]
  constructor
  · intro hf
    obtain ⟨m, hm, _, hc⟩ := (h 0 v).2 ⟨0, t, by simp, rfl, hf⟩
    exact ⟨m, hm, hc⟩
  · rintro ⟨m, hm, rfl⟩
    obtain ⟨i, t', hi, _, hf⟩ := (h m.start m.caps).1 ⟨m, hm, rfl, rfl⟩
    have : t' = t := by simpa using List.mem_of_getElem? hi
    rw [← this]; exact hf

theorem wreads_ok : All2 (Reads [wl1, wl2]) (splitC '\n' wtext) wreads := by
  have o1 := wl_ok wl1 (by simp)
  have o2 := wl_ok wl2 (by simp)
  have e : splitC '\n' wtext = [c!"interface a", c!"  mtu 2", c!" mtu  1", c!"interface b"] := by decide
  have one : ∀ (t : Str) (v : List (Str × Str)), '\n' ∉ t → (Re.finditer (TplRe wl1) (nlText [t])).map (·.caps) = [v] →
      (Re.finditer (TplRe wl2) (nlText [t])).map (·.caps) = [] → Reads [wl1, wl2] t (some (0, v)) := by
    intro t v ht h1 h2
    refine ⟨⟨wl1, rfl, (fits_iff wl1 o1 t ht v).2 (by rw [h1]; simp)⟩, ?_⟩
    intro i l v' hi hf
    match i with
    | 0 => rfl
    | 1 =>
      simp only [List.getElem?_cons_succ, List.getElem?_cons_zero, Option.some.injEq] at hi
      subst hi
      rw [fits_iff wl2 o2 t ht, h2] at hf
      cases hf
    | k + 2 => cases hi
  have two : ∀ (t : Str) (v : List (Str × Str)), '\n' ∉ t → (Re.finditer (TplRe wl1) (nlText [t])).map (·.caps) = [] →
      (Re.finditer (TplRe wl2) (nlText [t])).map (·.caps) = [v] → Reads [wl1, wl2] t (some (1, v)) := by
    intro t v ht h1 h2
    refine ⟨⟨wl2, rfl, (fits_iff wl2 o2 t ht v).2 (by rw [h2]; simp)⟩, ?_⟩
    intro i l v' hi hf
    match i with
    | 0 =>
      simp only [List.getElem?_cons_zero, Option.some.injEq] at hi
      subst hi
      rw [fits_iff wl1 o1 t ht, h1] at hf
      cases hf
    | 1 => rfl
    | k + 2 => cases hi
  rw [e]
  refine .cons (one _ _ (by decide) (by decide +kernel) (by decide +kernel)) (.cons ?_ (.cons (two _ _ (by decide) (by decide +kernel) (by decide +kernel))
    (.cons (one _ _ (by decide) (by decide +kernel) (by decide +kernel)) .nil)))
  intro l hl v hf
  simp only [List.mem_cons, List.not_mem_nil, or_false] at hl
  rcases hl with rfl | rfl
  · rw [fits_iff _ o1 _ (by decide), show (Re.finditer (TplRe wl1) (nlText [c!"  mtu 2"])).map (·.caps) = [] from by decide +kernel] at hf
    cases hf
  · rw [fits_iff _ o2 _ (by decide), show (Re.finditer (TplRe wl2) (nlText [c!"  mtu 2"])).map (·.caps) = [] from by decide +kernel] at hf
    cases hf

theorem wclear : Clear [wl1, wl2] wtext := by
  intro t ht
  obtain ⟨k, hk⟩ := List.getElem?_of_mem ht
  obtain ⟨r, _, hr⟩ := all2_get wreads_ok k t hk
  exact ⟨r, hr⟩

end Ex

/-- the hypotheses of C78 are met -/
example : GroupName c!"interfaces" ∧ (∀ l ∈ [Ex.wl1, Ex.wl2], l.OK) ∧ Clear [Ex.wl1, Ex.wl2] Ex.wtext :=
  ⟨⟨by decide, by decide, by decide, by decide⟩, Ex.wl_ok, Ex.wclear⟩

/-- what the example means -/
example : Means c!"interfaces" false [Ex.wl1, Ex.wl2] Ex.wtext (.dict [(.s c!"interfaces", .list [
    .dict [(.s c!"name", .str c!"a"), (.s c!"mtu", .str c!"1")], .dict [(.s c!"name", .str c!"b")]])]) := by
  refine ⟨Ex.wreads, [[(.s c!"name", .str c!"a"), (.s c!"mtu", .str c!"1")], [(.s c!"name", .str c!"b")]], Ex.wreads_ok, ?_, rfl⟩
  refine .cons ?_ (.cons ?_ .nil)
  · intro k
    simp only [Ex.wreads, recOf, Dict.get?, linesOf, evsOf, List.map_cons, List.map_nil, List.cons_append, List.nil_append, List.findSome?_cons, List.findSome?_nil]
    by_cases h1 : Key.s c!"name" = k
    · simp [h1]
    · by_cases h2 : Key.s c!"mtu" = k <;> simp [h1, h2]
  · intro k
    simp only [Ex.wreads, recOf, Dict.get?, linesOf, evsOf, List.map_cons, List.map_nil, List.cons_append, List.nil_append, List.findSome?_cons, List.findSome?_nil]
    by_cases h1 : Key.s c!"name" = k <;> simp [h1]

/-- the XML element of the example is the template as it is written -/
example : (groupXml c!"interfaces*" [Ex.wl1, Ex.wl2] (some c!"\n")).text = some c!"\ninterface {{ name }}\n mtu {{ mtu }}\n" := by decide

end Props
