import Verif.Proofs.RichTree3
import Verif.Proofs.NoFns
import Verif.Props.Tree
import Verif.Props.Rich
/-!
# C157: what a template with nested groups makes of a text, with patterns, functions, defaults and `_start_`

From the XML elements of the groups and the text to the results, through the loader, the line compiler, the search, the results machine
and the parser object.
-/

namespace Props
open Py Spec TTP

/-! ## Lemmas -/

mutual
theorem rlisting_parents (p : List Str) (T : RGroup) (x) (h : x ∈ T.listing p) : x.1.dropLast = p ∨ x.1.dropLast ∈ (T.listing p).map Prod.fst := by
  match T with
  | .mk n ls pad cs tail =>
    simp only [RGroup.listing, List.mem_cons] at h
    rcases h with rfl | h
    · left; simp
    · right
      rcases rlistings_parents (p ++ [n]) cs x h with h | h
      · simp [RGroup.listing, h]
      · simp only [RGroup.listing, List.map_cons, List.mem_cons]; exact Or.inr h
theorem rlistings_parents (p : List Str) (cs : List RGroup) (x) (h : x ∈ richListings p cs) : x.1.dropLast = p ∨ x.1.dropLast ∈ (richListings p cs).map Prod.fst := by
  match cs with
  | [] => cases h
  | c :: cs =>
    simp only [richListings, List.mem_append, List.map_append] at h ⊢
    rcases h with h | h
    · rcases rlisting_parents p c x h with h | h
      · exact Or.inl h
      · exact Or.inr (Or.inl h)
    · rcases rlistings_parents p cs x h with h | h
      · exact Or.inl h
      · exact Or.inr (Or.inr h)
end

mutual
theorem rlisting_names (ctx : LoadCtx) (p : List Str) (T : RGroup) (hT : T.OK ctx) (x) (h : x ∈ T.listing p) :
    (∀ m ∈ x.1, m ∈ p ∨ GroupName m) ∧ LinesOK ctx x.2 := by
  match T with
  | .mk n ls pad cs tail =>
    obtain ⟨hn, hlo, _, _, hcs⟩ := hT
    simp only [RGroup.listing, List.mem_cons] at h
    rcases h with rfl | h
    · refine ⟨?_, hlo⟩
      intro m hm
      rcases List.mem_append.1 hm with hm | hm
      · exact Or.inl hm
      · rw [List.mem_singleton] at hm; subst hm; exact Or.inr hn
    · obtain ⟨h1, h2⟩ := rlistings_names ctx (p ++ [n]) cs hcs x h
      refine ⟨?_, h2⟩
      intro m hm
      rcases h1 m hm with h | h
      · rcases List.mem_append.1 h with h | h
        · exact Or.inl h
        · rw [List.mem_singleton] at h; subst h; exact Or.inr hn
      · exact Or.inr h
theorem rlistings_names (ctx : LoadCtx) (p : List Str) (cs : List RGroup) (hcs : richGroupsOK ctx cs) (x) (h : x ∈ richListings p cs) :
    (∀ m ∈ x.1, m ∈ p ∨ GroupName m) ∧ LinesOK ctx x.2 := by
  match cs with
  | [] => cases h
  | c :: cs =>
    obtain ⟨h1, _, h3⟩ := hcs
    simp only [richListings, List.mem_append] at h
    rcases h with h | h
    · exact rlisting_names ctx p c h1 x h
    · exact rlistings_names ctx p cs h3 x h
end

mutual
theorem rlisting_unique (ctx : LoadCtx) (p : List Str) (T : RGroup) (hT : T.OK ctx) (x y) (hx : x ∈ T.listing p) (hy : y ∈ T.listing p) (e : x.1 = y.1) : x = y := by
  match T with
  | .mk n ls pad cs tail =>
    have hlong : ∀ z ∈ richListings (p ++ [n]) cs, z.1 ≠ p ++ [n] := by
      intro z hz e
      obtain ⟨m, _, hm⟩ := rlistings_prefix _ _ _ hz
      rw [e] at hm
      have := hm.length_le
      simp at this
    simp only [RGroup.listing, List.mem_cons] at hx hy
    rcases hx with rfl | hx <;> rcases hy with rfl | hy
    · rfl
    · exact absurd e.symm (hlong y hy)
    · exact absurd e (hlong x hx)
    · exact rlistings_unique ctx (p ++ [n]) cs hT.2.2.2.2 x y hx hy e
theorem rlistings_unique (ctx : LoadCtx) (p : List Str) (cs : List RGroup) (hcs : richGroupsOK ctx cs) (x y) (hx : x ∈ richListings p cs) (hy : y ∈ richListings p cs) (e : x.1 = y.1) : x = y := by
  match cs with
  | [] => cases hx
  | c :: cs =>
    obtain ⟨h1, h2, h3⟩ := hcs
    simp only [richListings, List.mem_append] at hx hy
    rcases hx with hx | hx <;> rcases hy with hy | hy
    · exact rlisting_unique ctx p c h1 x y hx hy e
    · obtain ⟨m, hm, hmp⟩ := rlistings_prefix _ _ _ hy
      rw [← e] at hmp
      rw [← snoc_prefix_inj p _ _ _ (rlisting_prefix _ _ _ hx) hmp] at hm
      exact absurd hm h2
    · obtain ⟨m, hm, hmp⟩ := rlistings_prefix _ _ _ hx
      rw [e] at hmp
      rw [← snoc_prefix_inj p _ _ _ (rlisting_prefix _ _ _ hy) hmp] at hm
      exact absurd hm h2
    · exact rlistings_unique ctx p cs h3 x y hx hy e
end

theorem dfltOf_eq (ctx : LoadCtx) (tops : List RGroup) (hT : richGroupsOK ctx tops) (g : List Str) (ls : List RLine)
    (h : (g, ls) ∈ richListings [] tops) : dfltOf (richListings [] tops) g = richDefaults ls := by
  unfold dfltOf
  cases hf : (richListings [] tops).find? (fun x => decide (x.1 = g)) with
  | none =>
    have := List.find?_eq_none.1 hf _ h
    simp at this
  | some y =>
    have h1 := List.mem_of_find?_eq_some hf
    have h2 := List.find?_some hf
    have := rlistings_unique ctx [] tops hT y (g, ls) h1 h (by simpa using h2)
    rw [this]
    rfl

theorem richDefaults_WF (ls : List RLine) : Dict.WF (richDefaults ls) := by
  have key : ∀ (xs : List (Str × Val)) (d : Dict Key Val), Dict.WF d → Dict.WF (xs.foldl (fun d nx => Dict.set d (.s nx.1) nx.2) d) := by
    intro xs
    induction xs with
    | nil => intro d h; exact h
    | cons x xs ih => intro d h; exact ih _ (Dict.WF_set _ _ _ h)
  exact key _ _ (by simp [Dict.WF, Dict.keys])

theorem richDefaults_keys (ls : List RLine) (k : Key) (h : k ∈ Dict.keys (richDefaults ls)) :
    ∃ l ∈ ls, ∃ v ∈ varsOf l.pieces, k = .s v.name := by
  have key : ∀ (xs : List (Str × Val)) (d : Dict Key Val), k ∈ Dict.keys (xs.foldl (fun d nx => Dict.set d (.s nx.1) nx.2) d) →
      k ∈ Dict.keys d ∨ ∃ x ∈ xs, k = .s x.1 := by
    intro xs
    induction xs with
    | nil => intro d h; exact Or.inl h
    | cons x xs ih =>
      intro d h
      rcases ih _ h with h | ⟨y, hy, e⟩
      · rw [Dict.mem_keys_set] at h
        rcases h with h | h
        · exact Or.inr ⟨x, by simp, h⟩
        · exact Or.inl h
      · exact Or.inr ⟨y, by simp [hy], e⟩
  rcases key _ _ h with h | ⟨x, hx, e⟩
  · cases h
  · obtain ⟨v, hv, hx⟩ := List.mem_flatMap.1 hx
    obtain ⟨l, hl, hv⟩ := List.mem_flatMap.1 hv
    obtain ⟨a, _, rfl⟩ := List.mem_map.1 hx
    exact ⟨l, hl, v, hv, e⟩

theorem apart_key (tops : List RGroup) (hap : RichApart tops) (toInt : Bool) (x) (hx : x ∈ richListings [] tops) (l : RLine) (hl : l ∈ x.2)
    (v : RVar) (hv : v ∈ varsOf l.pieces) : ∀ g' ∈ (richListings [] tops).map Prod.fst, ∀ n ∈ g', Key.s v.name ≠ pathKey toInt n := by
  intro g' hg' n hn he
  obtain ⟨y, hy, rfl⟩ := List.mem_map.1 hg'
  unfold pathKey at he
  split at he
  · cases he
  · have he := Key.s.inj he
    exact hap x hx l hl v hv y hy (he ▸ hn)

theorem rgroups_ok (ctx : LoadCtx) (env : Env) (toInt : Bool) (tops : List RGroup) (hT : richGroupsOK ctx tops) (hap : RichApart tops)
    (hd : RichDfltsOK env tops) :
    GroupsOK toInt ((richListings [] tops).map Prod.fst) (ridOf tops) (dfltOf (richListings [] tops)) := by
  have hne : ∀ x ∈ richListings [] tops, x.1 ≠ [] := by
    intro x hx e
    obtain ⟨m, _, hm⟩ := rlistings_prefix _ _ _ hx
    rw [e] at hm
    have := hm.length_le
    simp at this
  have hname : ∀ x ∈ richListings [] tops, ∀ m ∈ x.1, GroupName m := by
    intro x hx m hm
    rcases (rlistings_names ctx [] tops hT x hx).1 m hm with h | h
    · cases h
    · exact h
  refine ⟨?_, ?_, ?_, ?_, ?_⟩
  · intro h
    obtain ⟨x, hx, e⟩ := List.mem_map.1 h
    exact hne x hx e
  · intro g hg hd
    obtain ⟨x, hx, rfl⟩ := List.mem_map.1 hg
    rcases rlistings_parents [] tops x hx with h | h
    · exact absurd h hd
    · exact h
  · intro g hg g' hg' e
    obtain ⟨x, hx, rfl⟩ := List.mem_map.1 hg
    obtain ⟨y, hy, rfl⟩ := List.mem_map.1 hg'
    refine gidOf_inj _ _ _ _ (hne x hx) (hne y hy) ?_ e
    intro m hm hdot
    rcases List.mem_append.1 hm with hm | hm
    · exact ((hname x hx m hm).2.2.2 _ hdot).1 rfl
    · exact ((hname y hy m hm).2.2.2 _ hdot).1 rfl
  · intro g hg n hn
    obtain ⟨x, hx, rfl⟩ := List.mem_map.1 hg
    obtain ⟨_, h2, _, h4⟩ := hname x hx n hn
    exact ⟨h2, fun h => (h4 _ h).2.2.1 rfl, fun h => (h4 _ h).2.1 rfl⟩
  · intro g hg
    obtain ⟨x, hx, rfl⟩ := List.mem_map.1 hg
    rw [dfltOf_eq ctx tops hT x.1 x.2 hx]
    refine ⟨richDefaults_WF _, ?_⟩
    intro kv hkv
    refine ⟨(hd x hx).2 kv hkv, ?_⟩
    obtain ⟨l, hl, v, hv, e⟩ := richDefaults_keys x.2 kv.1 (List.mem_map.2 ⟨kv, hkv, rfl⟩)
    rw [e]
    exact apart_key tops hap toInt x hx l hl v hv

/-- what was read is found in the groups -/
theorem rread_at (mf : MatchFns) (env : Env) (groups : List (List Str × List RLine)) (lines : List Str) (reads : RReading)
    (hr : All2 (RichReadsIn mf env groups) lines reads) (k : Nat) (g : List Str) (st : Bool) (out : Option (Dict Key Val))
    (hk : reads[k]? = some (some (g, st, out))) :
    ∃ (ls : List RLine) (j : Nat) (l : RLine) (t : Str) (vals : List (RVar × Str)), (g, ls) ∈ groups ∧ ls[j]? = some l ∧ l.Fits t vals ∧ Valued mf env vals out := by
  have hlen := all2_len hr
  have hklt : k < reads.length := (List.getElem?_eq_some_iff.1 hk).1
  obtain ⟨r, hr1, hr2⟩ := all2_get hr k lines[k] (List.getElem?_eq_getElem (by omega))
  rw [hk] at hr1
  cases hr1
  obtain ⟨ls, j, l, vals, h1, h2, h3, h4, _⟩ := hr2
  exact ⟨ls, j, l, _, vals, h1, h2, h3, h4⟩

theorem rtells_read (ctx : LoadCtx) (mf : MatchFns) (env : Env) (toInt : Bool) (tops : List RGroup) (hT : richGroupsOK ctx tops) (hap : RichApart tops)
    (hd : RichDfltsOK env tops) (T : RGroup) (hTm : ∀ x ∈ T.listing [], x ∈ richListings [] tops)
    (lines : List Str) (reads : RReading) (hr : All2 (RichReadsIn mf env (T.listing [])) lines reads) (hflat : ∀ r ∈ reads, FlatRead r)
    (h : RawHit) (e : NEv) (hh : RHitOfRead (ridOf tops) (T.listing []) reads h e) :
    Tells toInt ((richListings [] tops).map Prod.fst) (ridOf tops) (dfltOf (richListings [] tops)) (toHit env h) e := by
  obtain ⟨k, g, st, out, hk, hhit, he⟩ := hh
  obtain ⟨ls, j, l, t, vals, h1, h2, h3, h4⟩ := rread_at mf env _ lines reads hr k g st out hk
  obtain ⟨ls', h1', hinfo⟩ := hhit.info
  have hin := hTm _ h1
  have hun := rlistings_unique ctx [] tops hT (g, ls) (g, ls') hin (hTm _ h1') rfl
  simp only [Prod.mk.injEq, true_and] at hun
  subst hun
  have hls := (rlistings_names ctx [] tops hT _ hin).2
  have hgrp : e.group = g := by
    unfold rmkEv at he
    cases st with
    | true => cases out <;> (simp [startEv] at he; subst he; rfl)
    | false => cases out <;> simp at he; subst he; rfl
  have hdat : ∀ d, out = some d → e.data = d := by
    rintro d rfl
    unfold rmkEv at he
    cases st <;> (simp [startEv] at he; subst he; rfl)
  have hnone : out = none → e.data = [] := by
    rintro rfl
    unfold rmkEv at he
    cases st <;> simp [startEv] at he
    subst he; rfl
  have hruns : updateRuns (updateRuns (richDefaults ls) env.gvars) env.vars = richDefaults ls := by
    have hdp := (hd _ hin).1
    rw [updateRuns_id _ _ (fun kv hkv s hs => (hdp kv hkv s hs).2), updateRuns_id _ _ (fun kv hkv s hs => (hdp kv hkv s hs).1)]
  refine ⟨?_, ?_, ?_, ?_⟩
  · rw [hgrp]; exact List.mem_map.2 ⟨_, hin, rfl⟩
  · rw [hgrp]
    refine ⟨hinfo.gid, hinfo.parent, hinfo.path, ?_, hinfo.funcs, hhit.isLine⟩
    rw [dfltOf_eq ctx tops hT g ls hin]
    show updateRuns (updateRuns h.info.defaults env.gvars) env.vars = _
    rw [hinfo.defaults, hruns]
  · have ha := hhit.action
    have hdd := hhit.data
    unfold rmkEv at he
    cases st with
    | true =>
      cases out with
      | none => simp [startEv] at he; subst he; exact hdd
      | some d => simp [startEv] at he; subst he; exact Or.inl ⟨ha, hdd⟩
    | false =>
      cases out with
      | none => simp at he
      | some d => simp at he; subst he; exact ⟨ha, hdd⟩
  · cases out with
    | none =>
      rw [hnone rfl]
      exact ⟨by simp [Dict.WF, Dict.keys], by simp⟩
    | some d =>
      rw [hdat d rfl]
      have hkeys := valued_WF mf env vals _ h4 d rfl
      have hlm := List.mem_of_getElem? h2
      refine ⟨?_, ?_⟩
      · unfold Dict.WF
        rw [hkeys, show vals.map (fun vu => Key.s vu.1.name) = (vals.map (fun vu => vu.1.name)).map Key.s by rw [List.map_map]; rfl]
        exact List.Pairwise.map _ (fun a b hab e => hab (Key.s.inj e)) (fits_nodup ctx l (hls.lines l hlm) t vals h3)
      · intro kv hkv
        refine ⟨hflat _ (List.mem_of_getElem? hk) kv hkv, ?_⟩
        have hm : kv.1 ∈ Dict.keys d := List.mem_map.2 ⟨kv, hkv, rfl⟩
        rw [hkeys] at hm
        obtain ⟨vu, hvu, e⟩ := List.mem_map.1 hm
        rw [← e]
        refine apart_key tops hap toInt _ hin l hlm vu.1 ?_
        rw [← fits_vars l t vals h3]
        exact List.mem_map.2 ⟨vu, hvu, rfl⟩

/-- starts, lines and rejected matches never fail -/
theorem desk_total' (D : Desk) (evs : List NEv) (h : ∀ e ∈ evs, ∀ g, e ≠ .stop g) : ∃ D', D.run evs = some D' := by
  induction evs generalizing D with
  | nil => exact ⟨D, rfl⟩
  | cons e evs ih =>
    have hs : ∃ D1, D.step e = some D1 := by
      have := h e (by simp)
      cases e with
      | bad g => exact ⟨_, rfl⟩
      | stop g => exact absurd rfl (this g)
      | start g d => simp only [Desk.step]; split <;> exact ⟨_, rfl⟩
      | line g d =>
        simp only [Desk.step]
        split
        · exact ⟨_, rfl⟩
        · split
          · exact ⟨_, rfl⟩
          · split
            · exact ⟨_, rfl⟩
            · split <;> exact ⟨_, rfl⟩
    obtain ⟨D1, h1⟩ := hs
    obtain ⟨D', h2⟩ := ih D1 (fun x hx => h x (by simp [hx]))
    exact ⟨D', by simp [Desk.run, h1, h2]⟩

/-- what matches: no end lines, and groups that were read -/
theorem richForce_mem (S : List (List Str)) (rs : RReading) : ∀ e ∈ richForce S rs, (∀ g, e ≠ .stop g) ∧ ∃ st out, some (e.group, st, out) ∈ rs := by
  induction rs generalizing S with
  | nil => intro e h; cases h
  | cons r rs ih =>
    have lift : ∀ e : NEv, ((∀ g, e ≠ .stop g) ∧ ∃ st out, some (e.group, st, out) ∈ rs) →
        (∀ g, e ≠ .stop g) ∧ ∃ st out, some (e.group, st, out) ∈ r :: rs := by
      rintro e ⟨h0, j, v, h⟩; exact ⟨h0, j, v, by simp [h]⟩
    intro e h
    match r with
    | none => exact lift e (ih S e h)
    | some (g, true, out) =>
      simp only [richForce] at h
      split at h
      · rcases List.mem_cons.1 h with rfl | h
        · refine ⟨?_, true, out, ?_⟩
          · intro g'; cases out <;> simp [startEv]
          · cases out <;> simp [startEv, NEv.group]
        · exact lift e (ih _ e h)
      · exact lift e (ih _ e h)
    | some (g, false, out) =>
      simp only [richForce] at h
      split at h
      · rcases List.mem_append.1 h with h | h
        · cases out with
          | none => simp [lineEv] at h
          | some d =>
            simp only [lineEv, List.mem_singleton] at h
            subst h
            exact ⟨by simp, false, some d, by simp [NEv.group]⟩
        · exact lift e (ih _ e h)
      · exact lift e (ih _ e h)

/-- the search of the top groups -/
theorem runGroups_rtree (mf : MatchFns) (ctx : LoadCtx) (id : List Str → GId) (lines : List Str) (hne : lines ≠ []) (hl : ∀ t ∈ lines, '\n' ∉ t) (env : Env)
    (tops : List RGroup) (hT : richGroupsOK ctx tops) (gs : List Grp) (hb : RBuiltAll id [] tops gs) (readss : List RReading)
    (hr : All2 (fun T reads => All2 (RichReadsIn mf env (T.listing [])) lines reads) tops readss) :
    ∃ raws hits, runGroups mf (dataText (join c!"\n" lines)) gs env = .ok (env, raws) ∧
      (((raws.filter (fun r => !r.isEmpty)).map (fun r => (sortRaw r).map (fun kv => kv.2.map (toHit env)))).flatten = (hits.map (toHit env)).map ([·])) ∧
      All2 (fun h e => ∃ T ∈ tops, ∃ reads ∈ readss, All2 (RichReadsIn mf env (T.listing [])) lines reads ∧ RHitOfRead id (T.listing []) reads h e) hits (readss.flatMap (richForce [])) := by
  induction hr generalizing gs with
  | nil =>
    rw [RBuiltAll] at hb
    subst hb
    exact ⟨[], [], rfl, rfl, .nil⟩
  | @cons T reads tops readss hr1 hrs ih =>
    obtain ⟨g, gs', rfl, hb1, hb2⟩ := hb
    obtain ⟨h1, h2, h3⟩ := hT
    obtain ⟨raws, hits, e1, e2, e3⟩ := ih h3 gs' hb2
    have hlen := all2_len hr1
    obtain ⟨log, hrun, hlog⟩ := runRe_rtree mf ctx id (T.listing []) lines hne hl env reads hr1 [] T h1 g hb1 0
      (Nat.zero_le _) rfl (fun x hx => hx) (fun x hx _ => hx) []
    obtain ⟨hits1, hs1, hs2⟩ := rsorted_log id (T.listing []) lines reads hlen _ log hlog (by
      intro k gg st out hk
      obtain ⟨ls, j, l, t, vals, h1, _⟩ := rread_at mf env _ lines reads hr1 k gg st out hk
      have := rlisting_prefix _ _ _ h1
      refine ⟨this, ?_⟩
      intro e
      simp only [e] at this
      have := this.length_le
      simp at this)
    have hp0 : posOf lines 0 = 0 := rfl
    rw [hp0] at hrun
    have hsort : (sortRaw (logDict [] log)).map (fun kv => kv.2.map (toHit env)) = (hits1.map (toHit env)).map ([·]) := by
      have : (sortRaw (logDict [] log)).map (fun kv => kv.2.map (toHit env)) = ((sortRaw (logDict [] log)).map Prod.snd).map (List.map (toHit env)) := by
        rw [List.map_map]; rfl
      rw [this, hs1]
      simp [List.map_map, Function.comp_def]
    refine ⟨logDict [] log :: raws, hits1 ++ hits, ?_, ?_, ?_⟩
    · simp only [runGroups, hrun, ok_bind, e1, pure_ok]
    · have hgen : ∀ r : RawDict, (sortRaw r).map (fun kv => kv.2.map (toHit env)) = (hits1.map (toHit env)).map ([·]) →
          (((r :: raws).filter (fun r => !r.isEmpty)).map (fun r => (sortRaw r).map (fun kv => kv.2.map (toHit env)))).flatten =
            ((hits1 ++ hits).map (toHit env)).map ([·]) := by
        intro r hr
        cases r with
        | nil =>
          have h0 : hits1 = [] := by
            simp only [sortRaw, List.foldr_nil, List.map_nil] at hr
            have := hr.symm
            simpa using this
          rw [h0]
          simpa using e2
        | cons a r =>
          simp only [List.filter_cons, List.isEmpty_cons, Bool.not_false, if_true, List.map_cons, List.flatten_cons, e2, hr, List.map_append]
      exact hgen _ hsort
    · rw [List.flatMap_cons]
      refine all2_append ?_ ?_
      · have := all2_imp_map (R' := fun h e => ∃ T' ∈ T :: tops, ∃ reads' ∈ reads :: readss, All2 (RichReadsIn mf env (T'.listing [])) lines reads' ∧ RHitOfRead id (T'.listing []) reads' h e) (fun x => x)
          (fun a b hab => ⟨T, by simp, reads, by simp, hr1, hab⟩) hs2
        simpa using this
      · have := all2_imp_map (R' := fun h e => ∃ T' ∈ T :: tops, ∃ reads' ∈ reads :: readss, All2 (RichReadsIn mf env (T'.listing [])) lines reads' ∧ RHitOfRead id (T'.listing []) reads' h e) (fun x => x)
          (fun a b hab => by
            obtain ⟨T', ht, rs', hrs', rest⟩ := hab
            exact ⟨T', by simp [ht], rs', by simp [hrs'], rest⟩) e3
        simpa using this

theorem mem_rlistings (p : List Str) (tops : List RGroup) (T : RGroup) (hT : T ∈ tops) : ∀ x ∈ T.listing p, x ∈ richListings p tops := by
  induction tops with
  | nil => cases hT
  | cons c cs ih =>
    intro x hx
    simp only [richListings, List.mem_append]
    rcases List.mem_cons.1 hT with rfl | h
    · exact Or.inl hx
    · exact Or.inr (ih h x hx)

theorem richGroupsOK_mem (ctx : LoadCtx) (tops : List RGroup) (h : richGroupsOK ctx tops) (T : RGroup) (hT : T ∈ tops) : T.OK ctx := by
  induction tops with
  | nil => cases hT
  | cons c cs ih =>
    obtain ⟨h1, _, h3⟩ := h
    rcases List.mem_cons.1 hT with rfl | hT
    · exact h1
    · exact ih h3 hT

theorem rreadss_of_clear (mf : MatchFns) (env : Env) (tops : List RGroup) (lines : List Str)
    (h : ∀ T ∈ tops, ∀ t ∈ lines, ∃ r, RichReadsIn mf env (T.listing []) t r ∧ FlatRead r) :
    ∃ readss, All2 (fun T reads => All2 (RichReadsIn mf env (T.listing [])) lines reads) tops readss ∧ ∀ reads ∈ readss, ∀ r ∈ reads, FlatRead r := by
  induction tops with
  | nil => exact ⟨[], .nil, by simp⟩
  | cons T tops ih =>
    obtain ⟨rs, hrs, hf⟩ := ih (fun T' h' => h T' (by simp [h']))
    have : ∀ ls : List Str, (∀ t ∈ ls, ∃ r, RichReadsIn mf env (T.listing []) t r ∧ FlatRead r) →
        ∃ reads, All2 (RichReadsIn mf env (T.listing [])) ls reads ∧ ∀ r ∈ reads, FlatRead r := by
      intro ls
      induction ls with
      | nil => intro _; exact ⟨[], .nil, by simp⟩
      | cons t ts ih =>
        intro h
        obtain ⟨r, hr, hfr⟩ := h t (by simp)
        obtain ⟨rs, hrs, hf⟩ := ih (fun t' h' => h t' (by simp [h']))
        refine ⟨r :: rs, .cons hr hrs, ?_⟩
        intro x hx
        rcases List.mem_cons.1 hx with rfl | hx
        · exact hfr
        · exact hf x hx
    obtain ⟨reads, hreads, hf'⟩ := this lines (h T (by simp))
    refine ⟨reads :: rs, .cons hreads hrs, ?_⟩
    intro x hx
    rcases List.mem_cons.1 hx with rfl | hx
    · exact hf'
    · exact hf x hx

/-! ## One text -/

theorem parse_rtree (ctx : LoadCtx) (mf : MatchFns) (gf : GroupFns) (toInt : Bool) (tops : List RGroup) (hT : richGroupsOK ctx tops)
    (hap : RichApart tops) (gs : List Grp) (hb : RBuiltAll (ridOf tops) [] tops gs) (env : Env) (hd : RichDfltsOK env tops) (d : Str)
    (hc : RichClearIn mf env tops d) :
    ∃ v, RichMeansTree mf env toInt tops d v ∧
      (parseText mf gf toInt [] gs (dataText d) env (.dict [])).map (fun m => (m.results, m.vars, m.gvars)) = .ok (v, env.vars, env.gvars) := by
  obtain ⟨readss, hr, hflat⟩ := rreadss_of_clear mf env tops _ hc
  obtain ⟨raws, hits, e1, e2, e3⟩ := runGroups_rtree mf ctx (ridOf tops) (splitC '\n' d) (splitC_ne_nil '\n' d) (fun t ht => splitC_no_sep '\n' d t ht)
    env tops hT gs hb readss hr
  rw [join_splitC] at e1
  obtain ⟨D, hD⟩ := desk_total' ⟨[], [], []⟩ (readss.flatMap (richForce [])) (by
    intro e he
    obtain ⟨rs, _, he⟩ := List.mem_flatMap.1 he
    exact (richForce_mem [] rs e he).1)
  refine ⟨_, ⟨readss, D, hr, hD, rfl⟩, ?_⟩
  have ht : All2 (Tells toInt ((richListings [] tops).map Prod.fst) (ridOf tops) (dfltOf (richListings [] tops))) (hits.map (toHit env))
      (readss.flatMap (richForce [])) :=
    all2_imp_map _ (fun h e hh => by
      obtain ⟨T, hTm, reads, hrm, hrr, hh⟩ := hh
      exact rtells_read ctx mf env toInt tops hT hap hd T (mem_rlistings [] tops T hTm) _ reads hrr (hflat reads hrm) h e hh) e3
  have h85 := C85_nested_groups toInt gf env.vars env.gvars _ _ _ (rgroups_ok ctx env toInt tops hT hap hd) _ _ ht
  rw [hD] at h85
  simp only [parseText, e1, ok_bind]
  rw [makeResults_flatten, e2]
  cases hm : makeResults toInt gf [] env.vars env.gvars [(hits.map (toHit env)).map ([·])] (.dict []) with
  | error e => rw [hm] at h85; cases h85
  | ok ms =>
    rw [hm] at h85
    simp only [Except.map, Except.ok.injEq] at h85
    have hq := makeResults_noFns toInt gf env.vars env.gvars (hits.map (toHit env)) (by
      intro h hh
      obtain ⟨i, hi⟩ := List.getElem?_of_mem hh
      obtain ⟨e, _, hte⟩ := all2_get ht i h hi
      exact hte.lineOf.funcs) _ ms hm
    simp only [Except.map, h85, hq.1, hq.2]

/-! ## C157 -/

/-- C157. A template with nested groups (of any depth and number) whose variables can have patterns, functions, defaults and `_start_`:
loading it succeeds, and for all functions and variables around and every text in which each line is read in one way at most by a
top group and the groups inside, the search and the results machine give what the template means and leave the variables alone. -/
theorem C157_nested_rich_template (ctx : LoadCtx) (hp : ctx.patterns = getPattern) (hre : ctx.re = ReText.compile) (mf : MatchFns) (gf : GroupFns)
    (toInt : Bool) (tops : List RGroup) (hT : richGroupsOK ctx tops) (hap : RichApart tops) :
    ∃ gs, loadGroups ctx c!"." 0 0 (richXmls tops) = .ok gs ∧
      ∀ env, RichDfltsOK env tops → ∀ d, RichClearIn mf env tops d → ∃ v, RichMeansTree mf env toInt tops d v ∧
        (parseText mf gf toInt [] (gs.map (·.grp)) (dataText d) env (.dict [])).map (fun m => (m.results, m.vars, m.gvars)) =
          .ok (v, env.vars, env.gvars) := by
  obtain ⟨gs, h1, h2⟩ := loadGroups_rtree ctx hp hre (ridOf tops) 0 0 tops hT (rids_tops ctx tops hT)
  exact ⟨gs, h1, fun env hd d hc => parse_rtree ctx mf gf toInt tops hT hap _ h2 env hd d hc⟩

/-- C157. A text has only one meaning. -/
theorem C157_one_meaning (mf : MatchFns) (env : Env) (ctx : LoadCtx) (toInt : Bool) (tops : List RGroup) (hT : richGroupsOK ctx tops) (d : Str) (v v' : Val)
    (h : RichMeansTree mf env toInt tops d v) (h' : RichMeansTree mf env toInt tops d v') : v = v' := by
  obtain ⟨readss, D, h1, h2, rfl⟩ := h
  obtain ⟨readss', D', h1', h2', rfl⟩ := h'
  have hone : ∀ T ∈ tops, ∀ t r r', RichReadsIn mf env (T.listing []) t r → RichReadsIn mf env (T.listing []) t r' → r = r' := by
    intro T hTm t r r' hr hr'
    have hun : ∀ x ∈ T.listing [], ∀ y ∈ T.listing [], x.1 = y.1 → x = y := fun x hx y hy e =>
      rlisting_unique ctx [] T (richGroupsOK_mem ctx tops hT T hTm) x y hx hy e
    match r, r' with
    | none, none => rfl
    | none, some (g, st, out) =>
      obtain ⟨ls, j, l, vals, a, b, c, _⟩ := hr'
      exact absurd c (hr g ls a l (List.mem_of_getElem? b) vals)
    | some (g, st, out), none =>
      obtain ⟨ls, j, l, vals, a, b, c, _⟩ := hr
      exact absurd c (hr' g ls a l (List.mem_of_getElem? b) vals)
    | some (g, st, out), some (g', st', out') =>
      obtain ⟨ls, j, l, vals, a, b, c, e, f, hu⟩ := hr
      obtain ⟨ls', j', l', vals', a', b', c', e', f', hu'⟩ := hr'
      obtain ⟨rfl, rfl, rfl⟩ := hu' g ls j l vals a b c
      have := hun _ a _ a' rfl
      simp only [Prod.mk.injEq, true_and] at this
      subst this
      rw [b] at b'
      cases b'
      have hst : st = st' := by
        rw [Bool.eq_iff_iff, f, f']
      rw [hst, valued_det e e']
  have hlist : ∀ T ∈ tops, ∀ (ts : List Str) (rs rs' : RReading), All2 (RichReadsIn mf env (T.listing [])) ts rs →
      All2 (RichReadsIn mf env (T.listing [])) ts rs' → rs = rs' := fun T hTm ts rs rs' hr hr' => all2_det (hone T hTm) hr hr'
  have hall : readss = readss' := by
    have : ∀ (ts : List RGroup) (rs rs' : List RReading), (∀ T ∈ ts, T ∈ tops) →
        All2 (fun T reads => All2 (RichReadsIn mf env (T.listing [])) (splitC '\n' d) reads) ts rs →
        All2 (fun T reads => All2 (RichReadsIn mf env (T.listing [])) (splitC '\n' d) reads) ts rs' → rs = rs' := by
      intro ts rs rs' hts hr hr'
      induction hr generalizing rs' with
      | nil => cases hr'; rfl
      | cons h1 _ ih =>
        cases hr' with
        | cons h1' h2' => rw [hlist _ (hts _ (by simp)) _ _ _ h1 h1', ih _ (fun T h => hts T (by simp [h])) h2']
    exact this tops readss readss' (fun T h => h) h1 h1'
  subst hall
  rw [h2] at h2'
  cases h2'
  rfl

/-! ## The parser object -/

/-- What one text gives without changing the variables, each of many texts gives: the parser object with the template, any texts in any
inputs. -/
theorem parseOne_still (E : Engine) (M : Str → Val → Prop) (C : Str → Prop) (gs : List TopGroup) (vars gvars : Dict Str Val)
    (hone : ∀ d, C d → ∃ v, M d v ∧
      (parseText E.mf E.gf E.toInt [] (gs.map (·.grp)) (dataText d) ⟨vars, gvars⟩ (.dict [])).map (fun m => (m.results, m.vars, m.gvars)) =
        .ok (v, vars, gvars) ∧ formDatum v = .ok v) (tname : Str) (lookups ovars olookups)
    (inputs : Dict Str (List Str)) (hc : ∀ i ∈ inputs, ∀ d ∈ i.2, C d) :
    ∃ o vs, parseOne E ⟨[⟨tname, gs, inputs.map (fun i => (i.1, ⟨i.2.map (fun d => ⟨.text, .str d⟩), List.range gs.length, [], .dict []⟩)), vars, [], [],
        lookups, [], c!"per_input", .list []⟩], ovars, olookups, gvars⟩ = .ok o ∧
      All2 M (inputs.flatMap (·.2)) vs ∧ o.templates.map (·.results) = [.list vs] ∧ o.gvars = gvars := by
  have hone' : ∀ (t : Tpl) (inp : TInput) (d : Str), t.groups = gs →
      t.vtr = [] → t.varFns = [] → t.vars = vars → inp.groups = List.range gs.length → inp.functions = [] → C d →
      ∃ v, M d v ∧ parseDatum E t inp ⟨.text, .str d⟩ (.dict []) gvars = .ok (v, gvars) ∧ formDatum v = .ok v := by
    intro t inp d h1 h2 h3 h6 h4 h5 hcl
    obtain ⟨v, hv, hp, hfd⟩ := hone d hcl
    cases hpt : parseText E.mf E.gf E.toInt [] (gs.map (·.grp)) (dataText d) ⟨vars, gvars⟩ (.dict []) with
    | error e => rw [hpt] at hp; cases hp
    | ok ms =>
      rw [hpt] at hp
      simp only [Except.map, Except.ok.injEq, Prod.mk.injEq] at hp
      refine ⟨v, hv, ?_, hfd⟩
      have hg : groupsOf t inp.groups = .ok (gs.map (·.grp)) := by rw [h4, ← h1]; exact groupsOf_range t
      simp [parseDatum, dataOf, h2, h3, h5, h6, runVarFns, runInFns, hg, hpt, ok_bind, pure_ok, hp]
  have hall : ∀ (t : Tpl), t.groups = gs → t.vtr = [] → t.varFns = [] → t.vars = vars →
      ∀ (jobs : List (TInput × Datum)) (ds : List Str),
      All2 (fun j d => j.1.groups = List.range gs.length ∧ j.1.functions = [] ∧ j.2 = ⟨.text, .str d⟩) jobs ds → (∀ d ∈ ds, C d) →
      ∃ vs, EachOf E t jobs gvars gvars vs ∧ All2 M ds vs := by
    intro t h1 h2 h3 h6 jobs ds hj
    induction hj with
    | nil => intro _; exact ⟨[], .nil gvars, .nil⟩
    | @cons j d jobs ds hj _ ih =>
      intro hcl
      obtain ⟨inp, x⟩ := j
      obtain ⟨h4, h5, rfl⟩ := hj
      obtain ⟨v, hm, hp, hf⟩ := hone' t inp d h1 h2 h3 h6 h4 h5 (hcl d (by simp))
      obtain ⟨vs, he, hms⟩ := ih (fun d' h' => hcl d' (by simp [h']))
      exact ⟨v :: vs, .cons hp hf he, .cons hm hms⟩
  generalize ht : (⟨tname, gs,
    inputs.map (fun i => (i.1, ⟨i.2.map (fun d => ⟨.text, .str d⟩), List.range gs.length, [], .dict []⟩)), vars, [], [],
    lookups, [], c!"per_input", .list []⟩ : Tpl) = t
  have hjobs : All2 (fun (j : TInput × Datum) d => j.1.groups = List.range gs.length ∧ j.1.functions = [] ∧ j.2 = ⟨.text, .str d⟩)
      (t.inputs.flatMap (fun i => i.2.data.map (fun d => (i.2, d)))) (inputs.flatMap (·.2)) := by
    subst ht
    clear hc
    induction inputs with
    | nil => exact .nil
    | cons i is ih =>
      obtain ⟨n, ds⟩ := i
      simp only [List.map_cons, List.flatMap_cons]
      generalize hinp : (⟨ds.map (fun d => ⟨.text, .str d⟩), List.range gs.length, [], .dict []⟩ : TInput) = inp at *
      have hd : inp.data = ds.map (fun d => ⟨.text, .str d⟩) := by rw [← hinp]
      have h4 : inp.groups = List.range gs.length := by rw [← hinp]
      have h5 : inp.functions = [] := by rw [← hinp]
      clear hd hinp
      induction ds with
      | nil => exact ih
      | cons d ds ihd => exact .cons ⟨h4, h5, rfl⟩ ihd
  obtain ⟨vs, he, hm⟩ := hall t (by rw [← ht]) (by rw [← ht]) (by rw [← ht]) (by rw [← ht]) _ _ hjobs (by
    intro d hd
    obtain ⟨i, hi, hd⟩ := List.mem_flatMap.1 hd
    exact hc i hi d hd)
  have hp := (C33_per_input_entries E t { t with results := .list ([] ++ vs) } gvars gvars (by rw [← ht]) [] (by rw [← ht])).2
    ⟨vs, he, by
      have := EachOf_length _ _ _ _ _ _ he
      rw [this]
      simp [List.length_flatMap], rfl⟩
  have hout : runOutputs E { t with results := .list ([] ++ vs) } = .ok { t with results := .list ([] ++ vs) } :=
    runOutputs_nil E _ (by rw [← ht])
  refine ⟨⟨[{ t with results := .list ([] ++ vs) }], ovars, olookups, gvars⟩, vs, ?_, hm, by simp, rfl⟩
  simp only [parseOne, parseAllOne, hp, ok_bind, pure_ok, runOutputsAll, hout]

theorem rmeans_anon (ctx : LoadCtx) (mf : MatchFns) (env : Env) (toInt : Bool) (tops : List RGroup) (hT : richGroupsOK ctx tops) (d : Str) (v : Val)
    (h : RichMeansTree mf env toInt tops d v) : formDatum v = .ok v := by
  obtain ⟨readss, D, h1, h2, rfl⟩ := h
  have hk : Key.s anon ∉ Dict.keys (treeOf toInt (dfltOf (richListings [] tops)) D.recs) := by
    intro hk
    obtain ⟨r, hr, n, hn, e⟩ := keys_treeOf _ _ _ _ hk
    rcases desk_groups _ _ _ h2 r hr with ⟨r', h, _⟩ | ⟨ev, hev, eg⟩
    · cases h
    · obtain ⟨rs, hrs, hev⟩ := List.mem_flatMap.1 hev
      obtain ⟨_, st, out, hm⟩ := richForce_mem [] rs ev hev
      obtain ⟨i, hi⟩ := List.getElem?_of_mem hrs
      have hlen := all2_len h1
      have hilt : i < readss.length := (List.getElem?_eq_some_iff.1 hi).1
      have hTm : tops[i]? = some (tops[i]'(by omega)) := List.getElem?_eq_getElem _
      obtain ⟨rs', hi', hreads⟩ := all2_get h1 i _ hTm
      rw [hi] at hi'
      cases hi'
      obtain ⟨k, hk⟩ := List.getElem?_of_mem hm
      obtain ⟨ls, j, l, t, vals, a, _⟩ := rread_at mf env _ _ rs hreads k _ st out hk
      have := (rlisting_names ctx [] _ (richGroupsOK_mem ctx tops hT _ (List.mem_of_getElem? hTm)) _ a).1
      rw [eg] at this
      rcases this n hn with h | h
      · cases h
      · unfold pathKey at e
        split at e
        · cases e
        · exact h.2.2.1 (Key.s.inj e).symm
  have := (Dict.get?_eq_none_iff _ (Key.s anon)).2 hk
  simp [formDatum, this, pure_ok]

/-- C157, the parser object: the template is loaded, any texts are given to it in any inputs, `parse` with one process succeeds, and
the results of the template are the meanings of the texts, in order; global variables are not changed. -/
theorem C157_object (ctx : LoadCtx) (hp : ctx.patterns = getPattern) (hre : ctx.re = ReText.compile) (E : Engine) (tops : List RGroup)
    (hT : richGroupsOK ctx tops) (hap : RichApart tops) (gs : List TopGroup)
    (hload : loadGroups ctx c!"." 0 0 (richXmls tops) = .ok gs) (tname : Str) (vars gvars lookups ovars olookups) (hd : RichDfltsOK ⟨vars, gvars⟩ tops)
    (inputs : Dict Str (List Str)) (hc : ∀ i ∈ inputs, ∀ d ∈ i.2, RichClearIn E.mf ⟨vars, gvars⟩ tops d) :
    ∃ o vs, parseOne E ⟨[⟨tname, gs, inputs.map (fun i => (i.1, ⟨i.2.map (fun d => ⟨.text, .str d⟩), List.range gs.length, [], .dict []⟩)), vars, [], [],
        lookups, [], c!"per_input", .list []⟩], ovars, olookups, gvars⟩ = .ok o ∧
      All2 (RichMeansTree E.mf ⟨vars, gvars⟩ E.toInt tops) (inputs.flatMap (·.2)) vs ∧ o.templates.map (·.results) = [.list vs] ∧ o.gvars = gvars := by
  obtain ⟨gs', h1, h2⟩ := C157_nested_rich_template ctx hp hre E.mf E.gf E.toInt tops hT hap
  rw [hload] at h1
  cases h1
  refine parseOne_still E _ (RichClearIn E.mf ⟨vars, gvars⟩ tops) gs vars gvars ?_ tname lookups ovars olookups inputs hc
  intro d hcd
  obtain ⟨v, hv, hpt⟩ := h2 ⟨vars, gvars⟩ hd d hcd
  exact ⟨v, hv, hpt, rmeans_anon ctx E.mf _ E.toInt tops hT d v hv⟩

/-! ## A template and a text that meet the hypotheses -/

namespace Ex

/-- `id | DIGIT | to_int` -/
def xtId : RVar := ⟨c!"id", [fn c!"DIGIT" [], fn c!"to_int" []]⟩
/-- `label | default("none")` -/
def xtLabel : RVar := ⟨c!"label", [fn c!"default" [.str c!"none"]]⟩
/-- `speed` -/
def xtSpeed : RVar := ⟨c!"speed", []⟩
/-- ` vlan {{ id | DIGIT | to_int }}` -/
def xt0 : RLine := ⟨c!" ", [.text c!"vlan ", .var xtId c!" id | DIGIT | to_int "], []⟩
/-- `  name {{ label | default("none") }}` -/
def xt1 : RLine := ⟨c!"  ", [.text c!"name ", .var xtLabel c!" label | default(\"none\") "], []⟩
/-- `  speed {{ speed }}` -/
def xt2 : RLine := ⟨c!"  ", [.text c!"speed ", .var xtSpeed c!" speed "], []⟩
/-- interfaces with vlans and states in them, and another top group -/
def xtTops : List RGroup :=
  [.mk c!"interfaces" [xr0, xr1] c!" " [.mk c!"vlans" [xt0, xt1] c!" " [] c!"\n", .mk c!"states" [xr2, xt2] [] [] c!"\n"] c!"\n",
   .mk c!"speeds" [xt2] [] [] []]
/-- the text -/
def xtText : Str := c!" vlan 9\ninterface a\n vlan 10\n  name red\n state down\n  speed 1\n mtu x\ninterface b\n state up1\n  speed 5\n mtu 9000\n vlan 20"

theorem xt_ok : ∀ l ∈ [xt0, xt1, xt2], l.OK richCtx := by
  intro l hl
  simp only [List.mem_cons, List.not_mem_nil, or_false] at hl
  rcases hl with rfl | rfl | rfl
  · refine rline_ok _ _ _ _ _ (blank_of _ (by decide)) (blank_of _ (by decide)) (by decide) (by decide) ⟨name_ok _ (by decide) (by decide) (by decide) (by decide), ?_⟩ (by decide) ?_
      (by decide) (by rw [← List.isPrefixOf_iff_prefix]; decide) (by rw [← contains_iff]; decide)
    · intro f hf
      simp only [xtId, List.mem_cons, List.not_mem_nil, or_false] at hf
      rcases hf with rfl | rfl
      · exact Or.inl ⟨by decide, rfl⟩
      · exact Or.inr (Or.inr (Or.inr (Or.inr (Or.inr (Or.inl ⟨by decide, by decide⟩)))))
    · refine ⟨[(c!" ", ⟨c!"DIGIT", none⟩, c!" "), (c!" ", ⟨c!"to_int", none⟩, c!" ")], c!" ", c!" ",
        by decide, spaces_of _ (by decide), ?_, .cons ⟨rfl, rfl, rfl⟩ (.cons ⟨rfl, rfl, rfl⟩ .nil)⟩
      intro i hi
      simp only [List.mem_cons, List.not_mem_nil, or_false] at hi
      rcases hi with rfl | rfl <;> exact ⟨spaces_of _ (by decide), attr_ok _ (by decide) (by decide) (by decide)⟩
  · refine rline_ok _ _ _ _ _ (blank_of _ (by decide)) (blank_of _ (by decide)) (by decide) (by decide) ⟨name_ok _ (by decide) (by decide) (by decide) (by decide), ?_⟩ (by decide) ?_
      (by decide) (by rw [← List.isPrefixOf_iff_prefix]; decide) (by rw [← contains_iff]; decide)
    · intro f hf
      simp only [xtLabel, List.mem_cons, List.not_mem_nil, or_false] at hf
      subst hf
      exact Or.inr (Or.inl ⟨rfl, _, rfl⟩)
    · refine ⟨[(c!" ", ⟨c!"default", some c!"\"none\""⟩, c!" ")], c!" ", c!" ",
        by decide, spaces_of _ (by decide), ?_, .cons ⟨rfl, Or.inr ⟨by decide, ?_⟩⟩ .nil⟩
      · intro i hi
        simp only [List.mem_cons, List.not_mem_nil, or_false] at hi
        subst hi
        exact ⟨spaces_of _ (by decide), attr_ok _ (by decide) (by decide) (by decide)⟩
      · show Args.eval (fun _ => none) c!"\"none\"" = _
        decide +kernel
  · refine rline_ok _ _ _ _ _ (blank_of _ (by decide)) (blank_of _ (by decide)) (by decide) (by decide) ⟨name_ok _ (by decide) (by decide) (by decide) (by decide), ?_⟩ (by decide) ?_
      (by decide) (by rw [← List.isPrefixOf_iff_prefix]; decide) (by rw [← contains_iff]; decide)
    · intro f hf; cases hf
    · exact ⟨[], c!" ", c!" ", by decide, spaces_of _ (by decide), (fun i hi => by cases hi), .nil⟩

/-- lines without end lines and without defaults in start lines -/
theorem linesOK_of (ls : List RLine) (hne : ls ≠ []) (hok : ∀ l ∈ ls, l.OK richCtx)
    (hk : (List.range ls.length).all (fun j => kindAt ls j != .stop) = true)
    (hd : (List.range ls.length).all (fun j => kindAt ls j != .start ||
      (varsOf ((ls[j]?.map (·.pieces)).getD [])).all (fun v => !(Dict.keys (richDefaults ls)).contains (Key.s v.name))) = true) :
    LinesOK richCtx ls := by
  refine ⟨hne, hok, ?_, ?_⟩
  · intro j l hj
    have h1 := List.all_eq_true.1 hk j (List.mem_range.2 (List.getElem?_eq_some_iff.1 hj).1)
    simp only [kindAt, hj, Option.map_some, Option.getD_some, bne_iff_ne] at h1
    exact h1
  · rintro ⟨j, l, hj, hkj, v, hv, hm⟩
    have h1 := List.all_eq_true.1 hd j (List.mem_range.2 (List.getElem?_eq_some_iff.1 hj).1)
    simp only [kindAt, hj, Option.map_some, Option.getD_some, hkj, bne_self_eq_false, Bool.false_or] at h1
    have h2 := List.all_eq_true.1 h1 v hv
    simp only [Bool.not_eq_true', List.contains_eq_mem, decide_eq_false_iff_not] at h2
    exact h2 hm

theorem xtTops_ok : richGroupsOK richCtx xtTops := by
  have b1 : ∀ c ∈ c!" ", Blank c := by intro c hc; left; simpa using hc
  have b2 : ∀ c ∈ c!"\n", isSpace c = true := by decide
  have b3 : ∀ c ∈ ([] : Str), Blank c := by simp
  have l1 : LinesOK richCtx [xr0, xr1] := linesOK_of _ (by simp)
    (by intro l hl; apply xr_ok; simp only [List.mem_cons, List.not_mem_nil, or_false] at hl; rcases hl with rfl | rfl <;> simp [xrTpl]) (by decide +kernel) (by decide +kernel)
  have l2 : LinesOK richCtx [xt0, xt1] := linesOK_of _ (by simp)
    (by intro l hl; apply xt_ok; simp only [List.mem_cons, List.not_mem_nil, or_false] at hl; rcases hl with rfl | rfl <;> simp) (by decide +kernel) (by decide +kernel)
  have l3 : LinesOK richCtx [xr2, xt2] := linesOK_of _ (by simp)
    (by
      intro l hl
      simp only [List.mem_cons, List.not_mem_nil, or_false] at hl
      rcases hl with rfl | rfl
      · exact xr_ok _ (by simp [xrTpl])
      · exact xt_ok _ (by simp)) (by decide +kernel) (by decide +kernel)
  have l4 : LinesOK richCtx [xt2] := linesOK_of _ (by simp) (by intro l hl; apply xt_ok; simp at hl; simp [hl]) (by decide +kernel) (by decide +kernel)
  exact ⟨⟨⟨by decide, by decide, by decide, by decide⟩, l1, b1, b2,
      ⟨⟨by decide, by decide, by decide, by decide⟩, l2, b1, b2, trivial⟩, by simp [RGroup.name],
      ⟨⟨by decide, by decide, by decide, by decide⟩, l3, b3, b2, trivial⟩, by simp, trivial⟩, by decide,
    ⟨⟨by decide, by decide, by decide, by decide⟩, l4, by simp, by simp, trivial⟩, by simp, trivial⟩

theorem xtTops_apart : RichApart xtTops := by
  unfold RichApart
  decide +kernel

theorem xtTops_dflts : RichDfltsOK ⟨[], []⟩ xtTops := by
  intro x hx
  refine ⟨fun kv _ s _ => ⟨by simp [Dict.keys], by simp [Dict.keys]⟩, ?_⟩
  have h : ∀ x ∈ richListings [] xtTops, ∀ kv ∈ richDefaults x.2, (match kv.2 with | .dict _ => false | _ => true) = true := by decide +kernel
  intro kv hkv
  have := h x hx kv hkv
  cases hv : kv.2 <;> rw [hv] at this <;> first | trivial | cases this

/-- everything that the lines of groups can make of a text -/
def xtAll (groups : List (List Str × List RLine)) (t : Str) : List (List Str × Nat × List (Str × Str)) :=
  groups.flatMap (fun x => (List.range x.2.length).flatMap (fun j => ((xrCaps (x.2.getD j xr0) t).eraseDups.map (fun c => (x.1, j, c)))))

theorem mem_xtAll (groups : List (List Str × List RLine)) (hok : ∀ x ∈ groups, ∀ l ∈ x.2, l.OK richCtx) (t : Str) (ht : '\n' ∉ t)
    (g : List Str) (ls : List RLine) (hg : (g, ls) ∈ groups) (j : Nat) (l : RLine) (hj : ls[j]? = some l) (vals : List (RVar × Str))
    (hf : l.Fits t vals) : (g, j, capsOf vals) ∈ xtAll groups t := by
  refine List.mem_flatMap.2 ⟨_, hg, List.mem_flatMap.2 ⟨j, List.mem_range.2 (List.getElem?_eq_some_iff.1 hj).1, ?_⟩⟩
  have := (xr_caps l (hok _ hg l (List.mem_of_getElem? hj)) t ht (capsOf vals)).1 ⟨vals, hf, rfl⟩
  refine List.mem_map.2 ⟨capsOf vals, ?_, rfl⟩
  rw [List.mem_eraseDups]
  simpa [List.getD, hj] using this

/-- a line that is not read -/
theorem xt_none (mf : MatchFns) (env : Env) (groups : List (List Str × List RLine)) (hok : ∀ x ∈ groups, ∀ l ∈ x.2, l.OK richCtx) (t : Str)
    (ht : '\n' ∉ t) (h : xtAll groups t = []) : RichReadsIn mf env groups t none := by
  intro g ls hg l hl vals hf
  obtain ⟨j, hj⟩ := List.getElem?_of_mem hl
  have := mem_xtAll groups hok t ht g ls hg j l hj vals hf
  rw [h] at this
  cases this

/-- a line that is read in one way -/
theorem xt_read (mf : MatchFns) (env : Env) (groups : List (List Str × List RLine)) (hok : ∀ x ∈ groups, ∀ l ∈ x.2, l.OK richCtx)
    (hun : (groups.map Prod.fst).Nodup) (t : Str) (ht : '\n' ∉ t) (i : Nat) (g : List Str) (ls : List RLine) (hg : groups[i]? = some (g, ls)) (j : Nat) (l : RLine)
    (hj : ls[j]? = some l) (vals : List (RVar × Str)) (hv : vals.map (·.1) = varsOf l.pieces) (out : Option (Dict Key Val))
    (hval : Valued mf env vals out) (st : Bool) (hst : st = decide (kindOf j l = .start)) (h : xtAll groups t = [(g, j, capsOf vals)]) :
    RichReadsIn mf env groups t (some (g, st, out)) := by
  have hgm := List.mem_of_getElem? hg
  have hun' : ∀ ls', (g, ls') ∈ groups → ls' = ls := by
    intro ls' h'
    obtain ⟨i', hi'⟩ := List.getElem?_of_mem h'
    have e1 : (groups.map Prod.fst)[i]? = some g := by simp [hg]
    have e2 : (groups.map Prod.fst)[i']? = some g := by simp [hi']
    have hlt : i < (groups.map Prod.fst).length := (List.getElem?_eq_some_iff.1 e1).1
    have := (List.getElem?_inj hlt hun).1 (e1.trans e2.symm)
    subst this
    rw [hg] at hi'
    cases hi'
    rfl
  have hfit : l.Fits t vals := by
    have hm : (g, j, capsOf vals) ∈ xtAll groups t := by rw [h]; simp
    obtain ⟨x, hx, h2⟩ := List.mem_flatMap.1 hm
    obtain ⟨j', hj', h3⟩ := List.mem_flatMap.1 h2
    obtain ⟨c, hc, e⟩ := List.mem_map.1 h3
    simp only [Prod.mk.injEq] at e
    obtain ⟨e1, rfl, rfl⟩ := e
    have e2 := hun' x.2 (by rw [← e1]; exact hx)
    rw [List.mem_eraseDups, e2] at hc
    have hc : capsOf vals ∈ xrCaps l t := by simpa [List.getD, hj] using hc
    obtain ⟨vals0, hf0, e0⟩ := (xr_caps l (hok _ hgm l (List.mem_of_getElem? hj)) t ht (capsOf vals)).2 hc
    have := vals_inj vals0 vals (by rw [fits_vars l t vals0 hf0, hv]) e0.symm
    subst this
    exact hf0
  refine ⟨ls, j, l, vals, hgm, hj, hfit, hval, by rw [hst]; simp, ?_⟩
  intro g' ls' i' l' vals' hg' hi' hf'
  have hm := mem_xtAll groups hok t ht g' ls' hg' i' l' hi' vals' hf'
  rw [h, List.mem_singleton, Prod.mk.injEq, Prod.mk.injEq] at hm
  obtain ⟨rfl, rfl, e⟩ := hm
  have := hun' ls' hg'
  subst this
  rw [hj] at hi'
  cases hi'
  exact ⟨rfl, rfl, vals_inj _ _ (by rw [fits_vars l t vals' hf', hv]) e⟩

/-- how the lines are read by the first top group -/
def xtReads1 : RReading :=
  [some ([c!"interfaces", c!"vlans"], true, some [(.s c!"id", .int 9)]), some ([c!"interfaces"], true, some [(.s c!"name", .str c!"a")]),
   some ([c!"interfaces", c!"vlans"], true, some [(.s c!"id", .int 10)]), some ([c!"interfaces", c!"vlans"], false, some [(.s c!"label", .str c!"red")]),
   some ([c!"interfaces", c!"states"], true, none), some ([c!"interfaces", c!"states"], false, some [(.s c!"speed", .str c!"1")]), none,
   some ([c!"interfaces"], true, some [(.s c!"name", .str c!"b")]), some ([c!"interfaces", c!"states"], true, some [(.s c!"state", .str c!"up1")]),
   some ([c!"interfaces", c!"states"], false, some [(.s c!"speed", .str c!"5")]), some ([c!"interfaces"], false, some [(.s c!"mtu", .int 9000)]),
   some ([c!"interfaces", c!"vlans"], true, some [(.s c!"id", .int 20)])]
/-- how they are read by the second -/
def xtReads2 : RReading :=
  [none, none, none, none, none, some ([c!"speeds"], true, some [(.s c!"speed", .str c!"1")]), none, none, none,
   some ([c!"speeds"], true, some [(.s c!"speed", .str c!"5")]), none, none]

theorem xtReads_ok : All2 (fun (T : RGroup) reads => All2 (RichReadsIn (MatchFn.builtin W1) ⟨[], []⟩ (T.listing [])) (splitC '\n' xtText) reads) xtTops
    [xtReads1, xtReads2] := by
  have hs : splitC '\n' xtText = [c!" vlan 9", c!"interface a", c!" vlan 10", c!"  name red", c!" state down", c!"  speed 1", c!" mtu x", c!"interface b",
      c!" state up1", c!"  speed 5", c!" mtu 9000", c!" vlan 20"] := by decide +kernel
  rw [hs]
  have ok1 : ∀ x ∈ RGroup.listing [] _, ∀ l ∈ x.2, l.OK richCtx := fun x hx => (rlisting_names richCtx [] _ xtTops_ok.1 x hx).2.lines
  have ok2 : ∀ x ∈ RGroup.listing [] _, ∀ l ∈ x.2, l.OK richCtx := fun x hx => (rlisting_names richCtx [] _ xtTops_ok.2.2.1 x hx).2.lines
  have toInt : ∀ (n : Int) (s : Str), MatchFn.builtin W1 (fn c!"to_int" []) ⟨[], []⟩ (.str s) = .ok (⟨[], []⟩, .int n, .nothing) →
      Judged (MatchFn.builtin W1) ⟨[], []⟩ [fn c!"to_int" []] (.str s) (some (.int n)) := fun n s h => .go h (Or.inl rfl) (.done _)
  refine .cons ?_ (.cons ?_ .nil)
  · refine .cons ?_ (.cons ?_ (.cons ?_ (.cons ?_ (.cons ?_ (.cons ?_ (.cons ?_ (.cons ?_ (.cons ?_ (.cons ?_ (.cons ?_ (.cons ?_ .nil)))))))))))
    · exact xt_read _ _ _ ok1 (by decide) _ (by decide) 1 _ _ rfl 0 xt0 rfl [(xtId, c!"9")] rfl _ (.go (toInt 9 _ rfl) .nil) _ (by decide) (by decide +kernel)
    · exact xt_read _ _ _ ok1 (by decide) _ (by decide) 0 _ _ rfl 0 xr0 rfl [(xrName, c!"a")] rfl _ (.go (.done _) .nil) _ (by decide) (by decide +kernel)
    · exact xt_read _ _ _ ok1 (by decide) _ (by decide) 1 _ _ rfl 0 xt0 rfl [(xtId, c!"10")] rfl _ (.go (toInt 10 _ rfl) .nil) _ (by decide) (by decide +kernel)
    · exact xt_read _ _ _ ok1 (by decide) _ (by decide) 1 _ _ rfl 1 xt1 rfl [(xtLabel, c!"red")] rfl _ (.go (.done _) .nil) _ (by decide) (by decide +kernel)
    · exact xt_read _ _ _ ok1 (by decide) _ (by decide) 2 _ _ rfl 0 xr2 rfl [(xrState, c!"down")] rfl _
        (.no (.no (f := fn c!"contains" [.str c!"up"]) (w := .str c!"down") rfl)) _ (by decide) (by decide +kernel)
    · exact xt_read _ _ _ ok1 (by decide) _ (by decide) 2 _ _ rfl 1 xt2 rfl [(xtSpeed, c!"1")] rfl _ (.go (.done _) .nil) _ (by decide) (by decide +kernel)
    · exact xt_none _ _ _ ok1 _ (by decide) (by decide +kernel)
    · exact xt_read _ _ _ ok1 (by decide) _ (by decide) 0 _ _ rfl 0 xr0 rfl [(xrName, c!"b")] rfl _ (.go (.done _) .nil) _ (by decide) (by decide +kernel)
    · exact xt_read _ _ _ ok1 (by decide) _ (by decide) 2 _ _ rfl 0 xr2 rfl [(xrState, c!"up1")] rfl _
        (.go (.go (f := fn c!"contains" [.str c!"up"]) (fl := .yes) (w := .str c!"up1") rfl (Or.inr rfl) (.done _)) .nil) _ (by decide) (by decide +kernel)
    · exact xt_read _ _ _ ok1 (by decide) _ (by decide) 2 _ _ rfl 1 xt2 rfl [(xtSpeed, c!"5")] rfl _ (.go (.done _) .nil) _ (by decide) (by decide +kernel)
    · exact xt_read _ _ _ ok1 (by decide) _ (by decide) 0 _ _ rfl 1 xr1 rfl [(xrMtu, c!"9000")] rfl _ (.go (toInt 9000 _ rfl) .nil) _ (by decide) (by decide +kernel)
    · exact xt_read _ _ _ ok1 (by decide) _ (by decide) 1 _ _ rfl 0 xt0 rfl [(xtId, c!"20")] rfl _ (.go (toInt 20 _ rfl) .nil) _ (by decide) (by decide +kernel)
  · refine .cons ?_ (.cons ?_ (.cons ?_ (.cons ?_ (.cons ?_ (.cons ?_ (.cons ?_ (.cons ?_ (.cons ?_ (.cons ?_ (.cons ?_ (.cons ?_ .nil)))))))))))
    all_goals first
      | exact xt_none _ _ _ ok2 _ (by decide) (by decide +kernel)
      | exact xt_read _ _ _ ok2 (by decide) _ (by decide) 0 _ _ rfl 0 xt2 rfl [(xtSpeed, c!"1")] rfl _ (.go (.done _) .nil) _ (by decide) (by decide +kernel)
      | exact xt_read _ _ _ ok2 (by decide) _ (by decide) 0 _ _ rfl 0 xt2 rfl [(xtSpeed, c!"5")] rfl _ (.go (.done _) .nil) _ (by decide) (by decide +kernel)

theorem xtFlat : ∀ rs ∈ [xtReads1, xtReads2], ∀ r ∈ rs, FlatRead r := by
  have h : ∀ rs ∈ [xtReads1, xtReads2], ∀ r ∈ rs, ∀ kv ∈ (r.bind (·.2.2)).getD [], (match kv.2 with | .dict _ => false | _ => true) = true := by decide +kernel
  intro rs hrs r hr
  match r with
  | none => trivial
  | some (_, _, none) => trivial
  | some (_, _, some d) =>
    intro kv hkv
    have := h rs hrs _ hr kv hkv
    cases hv : kv.2 <;> rw [hv] at this <;> first | trivial | cases this

theorem xt_clear : RichClearIn (MatchFn.builtin W1) ⟨[], []⟩ xtTops xtText := by
  intro T hT t ht
  obtain ⟨i, hi⟩ := List.getElem?_of_mem hT
  obtain ⟨rs, hrs1, hrs⟩ := all2_get xtReads_ok i T hi
  obtain ⟨k, hk⟩ := List.getElem?_of_mem ht
  obtain ⟨r, hr1, hr⟩ := all2_get hrs k t hk
  exact ⟨r, hr, xtFlat rs (List.mem_of_getElem? hrs1) r (List.mem_of_getElem? hr1)⟩

end Ex

/-- the hypotheses of C157 are met -/
example : richGroupsOK Ex.richCtx Ex.xtTops ∧ RichApart Ex.xtTops ∧ RichDfltsOK ⟨[], []⟩ Ex.xtTops ∧
    RichClearIn (MatchFn.builtin W1) ⟨[], []⟩ Ex.xtTops Ex.xtText := ⟨Ex.xtTops_ok, Ex.xtTops_apart, Ex.xtTops_dflts, Ex.xt_clear⟩

/-- What the example means: the vlan before every interface is lost; the rejected state switches its group off, so the speed after it is
lost for the first top group; the first interface and the second vlan get defaults; the late `mtu` goes into its interface. -/
theorem C157_example : RichMeansTree (MatchFn.builtin W1) ⟨[], []⟩ false Ex.xtTops Ex.xtText (.dict [
    (.s c!"interfaces", .list [
      .dict [(.s c!"name", .str c!"a"), (.s c!"mtu", .int 1500), (.s c!"vlans", .list [.dict [(.s c!"label", .str c!"red"), (.s c!"id", .int 10)]])],
      .dict [(.s c!"name", .str c!"b"), (.s c!"mtu", .int 9000), (.s c!"states", .list [.dict [(.s c!"speed", .str c!"5"), (.s c!"state", .str c!"up1")]]),
        (.s c!"vlans", .list [.dict [(.s c!"id", .int 20), (.s c!"label", .str c!"none")]])]]),
    (.s c!"speeds", .list [.dict [(.s c!"speed", .str c!"1")], .dict [(.s c!"speed", .str c!"5")]])]) := by
  obtain ⟨D, hD⟩ := desk_total' ⟨[], [], []⟩ ([Ex.xtReads1, Ex.xtReads2].flatMap (richForce [])) (by
    intro e he
    obtain ⟨rs, _, he⟩ := List.mem_flatMap.1 he
    exact (richForce_mem [] rs e he).1)
  refine ⟨_, D, Ex.xtReads_ok, hD, ?_⟩
  have h1 : some (Val.dict (treeOf false (dfltOf (richListings [] Ex.xtTops)) D.recs)) =
      (Desk.run ⟨[], [], []⟩ ([Ex.xtReads1, Ex.xtReads2].flatMap (richForce []))).map
        (fun D => Val.dict (treeOf false (dfltOf (richListings [] Ex.xtTops)) D.recs)) := by rw [hD]; rfl
  refine (Option.some.inj (h1.trans ?_)).symm
  decide +kernel

/-- the XML elements of the example are the template as it is written -/
example : (richXmls Ex.xtTops).map (·.text) = [some c!"\ninterface {{ name }}\n mtu {{ mtu | DIGIT | to_int | default(1500) }}\n ",
      some c!"\n  speed {{ speed }}\n"] ∧
    (richXmls Ex.xtTops).map (fun x => x.children.map (·.text)) = [[some c!"\n vlan {{ id | DIGIT | to_int }}\n  name {{ label | default(\"none\") }}\n ",
      some c!"\n state {{ state | contains(\"up\") }} \n  speed {{ speed }}\n"], []] := by decide +kernel

end Props
