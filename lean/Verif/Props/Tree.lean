import Verif.Proofs.Tree3
import Verif.Props.Nest
import Verif.Props.Whole
/-!
# C87: what a template with nested groups makes of a text, end to end

From the XML elements of the groups and the text to the results, through the loader, the line compiler, the search, the results machine
and the parser object.
-/

namespace Props
open Py Spec TTP

/-! ## Lemmas -/

mutual
theorem listing_parents (p : List Str) (T : TGroup) (x) (h : x ∈ T.listing p) : x.1.dropLast = p ∨ x.1.dropLast ∈ (T.listing p).map Prod.fst := by
  match T with
  | .mk n ls pad cs tail =>
    simp only [TGroup.listing, List.mem_cons] at h
    rcases h with rfl | h
    · left; simp
    · right
      rcases listings_parents (p ++ [n]) cs x h with h | h
      · simp [TGroup.listing, h]
      · simp only [TGroup.listing, List.map_cons, List.mem_cons]; exact Or.inr h
theorem listings_parents (p : List Str) (cs : List TGroup) (x) (h : x ∈ listings p cs) : x.1.dropLast = p ∨ x.1.dropLast ∈ (listings p cs).map Prod.fst := by
  match cs with
  | [] => cases h
  | c :: cs =>
    simp only [listings, List.mem_append, List.map_append] at h ⊢
    rcases h with h | h
    · rcases listing_parents p c x h with h | h
      · exact Or.inl h
      · exact Or.inr (Or.inl h)
    · rcases listings_parents p cs x h with h | h
      · exact Or.inl h
      · exact Or.inr (Or.inr h)
end

mutual
theorem listing_names (p : List Str) (T : TGroup) (hT : T.OK) (x) (h : x ∈ T.listing p) :
    (∀ m ∈ x.1, m ∈ p ∨ GroupName m) ∧ ∀ l ∈ x.2, l.OK := by
  match T with
  | .mk n ls pad cs tail =>
    obtain ⟨hn, _, hlo, _, _, hcs⟩ := hT
    simp only [TGroup.listing, List.mem_cons] at h
    rcases h with rfl | h
    · refine ⟨?_, hlo⟩
      intro m hm
      rcases List.mem_append.1 hm with hm | hm
      · exact Or.inl hm
      · rw [List.mem_singleton] at hm; subst hm; exact Or.inr hn
    · obtain ⟨h1, h2⟩ := listings_names (p ++ [n]) cs hcs x h
      refine ⟨?_, h2⟩
      intro m hm
      rcases h1 m hm with h | h
      · rcases List.mem_append.1 h with h | h
        · exact Or.inl h
        · rw [List.mem_singleton] at h; subst h; exact Or.inr hn
      · exact Or.inr h
theorem listings_names (p : List Str) (cs : List TGroup) (hcs : groupsOK cs) (x) (h : x ∈ listings p cs) :
    (∀ m ∈ x.1, m ∈ p ∨ GroupName m) ∧ ∀ l ∈ x.2, l.OK := by
  match cs with
  | [] => cases h
  | c :: cs =>
    obtain ⟨h1, _, h3⟩ := hcs
    simp only [listings, List.mem_append] at h
    rcases h with h | h
    · exact listing_names p c h1 x h
    · exact listings_names p cs h3 x h
end

theorem gidOf_inj (g g' : List Str) (i i' : Nat) (hg : g ≠ []) (hg' : g' ≠ []) (h : ∀ m ∈ g ++ g', '.' ∉ m) (e : gidOf g i = gidOf g' i') : g = g' := by
  have e1 := congrArg Prod.fst e
  simp only [gidOf] at e1
  have hs : ∀ g : List Str, g ≠ [] → (∀ m ∈ g, '.' ∉ m) → splitC '.' (join c!"." (g.map star)) = g.map star := by
    intro g hg h
    apply splitC_join _ _ (by simpa using hg)
    intro w hw
    obtain ⟨m, hm, rfl⟩ := List.mem_map.1 hw
    have := h m hm
    simp only [star, List.mem_append, List.mem_singleton, not_or]
    exact ⟨this, by decide⟩
  have e2 := congrArg (splitC '.') e1
  rw [hs g hg (fun m hm => h m (by simp [hm])), hs g' hg' (fun m hm => h m (by simp [hm]))] at e2
  have inj : ∀ a b : List Str, a.map star = b.map star → a = b := by
    intro a
    induction a with
    | nil => intro b h; cases b with
      | nil => rfl
      | cons => cases h
    | cons x a ih =>
      intro b h
      cases b with
      | nil => cases h
      | cons y b =>
        simp only [List.map_cons, List.cons.injEq, star, List.append_cancel_right_eq] at h
        rw [h.1, ih b h.2]
  exact inj _ _ e2

theorem groups_ok (toInt : Bool) (tops : List TGroup) (hT : groupsOK tops) :
    GroupsOK toInt ((listings [] tops).map Prod.fst) (idOf tops) (fun _ => []) := by
  have hne : ∀ x ∈ listings [] tops, x.1 ≠ [] := by
    intro x hx e
    obtain ⟨m, _, hm⟩ := listings_prefix _ _ _ hx
    rw [e] at hm
    have := hm.length_le
    simp at this
  have hname : ∀ x ∈ listings [] tops, ∀ m ∈ x.1, GroupName m := by
    intro x hx m hm
    rcases (listings_names [] tops hT x hx).1 m hm with h | h
    · cases h
    · exact h
  refine ⟨?_, ?_, ?_, ?_, ?_⟩
  · intro h
    obtain ⟨x, hx, e⟩ := List.mem_map.1 h
    exact hne x hx e
  · intro g hg hd
    obtain ⟨x, hx, rfl⟩ := List.mem_map.1 hg
    rcases listings_parents [] tops x hx with h | h
    · exact absurd h hd
    · exact h
  · intro g hg g' hg' e
    obtain ⟨x, hx, rfl⟩ := List.mem_map.1 hg
    obtain ⟨y, hy, rfl⟩ := List.mem_map.1 hg'
    refine gidOf_inj _ _ _ _ (hne x hx) (hne y hy) ?_ e
    intro m hm hdot
    rcases List.mem_append.1 hm with hm | hm
    · exact ((hname x hx m hm).2.2.2 _ hdot).1 rfl
    · exact ((hname y hy m hm).2.2.2 _ hdot).1 rfl
  · intro g hg n hn
    obtain ⟨x, hx, rfl⟩ := List.mem_map.1 hg
    obtain ⟨_, h2, _, h4⟩ := hname x hx n hn
    exact ⟨h2, fun h => (h4 _ h).2.2.1 rfl, fun h => (h4 _ h).2.1 rfl⟩
  · intro g _
    exact ⟨by simp [Dict.WF, Dict.keys], by simp⟩

theorem updateRuns_nil (d : Dict Str Val) : updateRuns [] d = [] := by
  unfold updateRuns
  induction d with
  | nil => rfl
  | cons a d ih => simpa using ih

theorem makeResults_flatten (toInt : Bool) (gf : GroupFns) (vars gvars : Dict Str Val) (raw : List (List (List TTP.Hit))) (R : Val) :
    makeResults toInt gf [] vars gvars raw R = makeResults toInt gf [] vars gvars [raw.flatten] R := by
  have hsv : saveVars toInt [] ⟨R, [], [], Record.empty, [], vars, gvars⟩ = .ok ⟨R, [], [], Record.empty, [], vars, gvars⟩ := by
    simp [saveVars, sorted, saveVarsAll, pure_ok, ok_bind]
  unfold makeResults
  simp only [hsv, List.isEmpty_cons, Bool.false_eq_true, if_false, List.flatten_cons, List.flatten_nil, List.append_nil, ok_bind]
  cases raw <;> simp [pure_ok, ok_bind]

theorem tells_read (toInt : Bool) (tops : List TGroup) (hap : NamesApart tops) (T : TGroup) (hTm : ∀ x ∈ T.listing [], x ∈ listings [] tops)
    (hT : T.OK) (lines : List Str) (reads : Reading) (hr : All2 (ReadsIn (T.listing [])) lines reads) (env : Env) (h : RawHit) (e : NEv)
    (hh : HitOfRead (idOf tops) reads h e) : Tells toInt ((listings [] tops).map Prod.fst) (idOf tops) (fun _ => []) (toHit env h) e := by
  obtain ⟨k, g, j, v, hk, hhit, rfl⟩ := hh
  have hlen := all2_len hr
  have hklt : k < reads.length := (List.getElem?_eq_some_iff.1 hk).1
  obtain ⟨r, hr1, hr2⟩ := all2_get hr k lines[k] (List.getElem?_eq_getElem (by omega))
  rw [hk] at hr1
  cases hr1
  obtain ⟨⟨ls, l, h1, h2, h3⟩, _⟩ := hr2
  have hin := hTm _ h1
  have hgrp : (mkEv g j v).group = g := by unfold mkEv; split <;> rfl
  have hdat : (mkEv g j v).data = recOf v := by unfold mkEv; split <;> rfl
  have hnames := fits_names l _ _ h3
  have hlok := (listing_names [] T hT _ h1).2 l (List.mem_of_getElem? h2)
  refine ⟨?_, ?_, ?_, ?_⟩
  · rw [hgrp]; exact List.mem_map.2 ⟨_, hin, rfl⟩
  · rw [hgrp]
    exact ⟨hhit.info.gid, hhit.info.parent, hhit.info.path, by simp [toHit, hhit.info.defaults, updateRuns_nil], hhit.info.funcs, hhit.isLine⟩
  · have ha := hhit.action
    have hd := hhit.data
    unfold mkEv
    by_cases hj : j = 0
    · simp only [hj, if_true] at ha ⊢
      exact Or.inl ⟨ha, hd⟩
    · simp only [hj, if_false] at ha ⊢
      exact ⟨ha, hd⟩
  · rw [hdat]
    refine ⟨?_, ?_⟩
    · have : Dict.keys (recOf v) = (v.map Prod.fst).map Key.s := by simp [Dict.keys, recOf, Function.comp_def]
      unfold Dict.WF
      rw [this, hnames]
      exact List.Pairwise.map _ (fun a b hab e => hab (Key.s.inj e)) hlok.names
    · intro kv hkv
      simp only [recOf, List.mem_map] at hkv
      obtain ⟨nv, hnv, rfl⟩ := hkv
      refine ⟨trivial, ?_⟩
      intro g' hg' n hn he
      obtain ⟨y, hy, rfl⟩ := List.mem_map.1 hg'
      unfold pathKey at he
      split at he
      · cases he
      · have he := Key.s.inj he
        have hmem : nv.1 ∈ tokNames l.items := by rw [← hnames]; exact List.mem_map.2 ⟨nv, hnv, rfl⟩
        exact hap _ hin l (List.mem_of_getElem? h2) nv.1 hmem y hy (he ▸ hn)

theorem all2_append {α β : Type} {R : α → β → Prop} {a c : List α} {b d : List β} (h : All2 R a b) (h' : All2 R c d) : All2 R (a ++ c) (b ++ d) := by
  induction h with
  | nil => exact h'
  | cons h1 _ ih => exact .cons h1 ih

theorem all2_imp_map {α α' β : Type} {R : α → β → Prop} {R' : α' → β → Prop} (f : α → α') (hf : ∀ a b, R a b → R' (f a) b) {as : List α} {bs : List β}
    (h : All2 R as bs) : All2 R' (as.map f) bs := by
  induction h with
  | nil => exact .nil
  | cons h1 _ ih => exact .cons (hf _ _ h1) ih

/-- starts and lines never fail -/
theorem desk_total (D : Desk) (evs : List NEv) (h : ∀ e ∈ evs, Ordinary e) : ∃ D', D.run evs = some D' := by
  induction evs generalizing D with
  | nil => exact ⟨D, rfl⟩
  | cons e evs ih =>
    have hs : ∃ D1, D.step e = some D1 := by
      have := h e (by simp)
      cases e with
      | bad g => exact this.elim
      | stop g => exact this.elim
      | start g d => simp only [Desk.step]; split <;> exact ⟨_, rfl⟩
      | line g d =>
        simp only [Desk.step]
        split
        · exact ⟨_, rfl⟩
        · split
          · exact ⟨_, rfl⟩
          · split
            · exact ⟨_, rfl⟩
            · split <;> exact ⟨_, rfl⟩
    obtain ⟨D1, h1⟩ := hs
    obtain ⟨D', h2⟩ := ih D1 (fun x hx => h x (by simp [hx]))
    exact ⟨D', by simp [Desk.run, h1, h2]⟩

theorem inForce_ordinary (S : List (List Str)) (rs : Reading) : ∀ e ∈ inForce S rs, Ordinary e := by
  induction rs generalizing S with
  | nil => intro e h; cases h
  | cons r rs ih =>
    intro e h
    match r with
    | none => exact ih S e h
    | some (g, 0, v) =>
      simp only [inForce] at h
      split at h
      · rcases List.mem_cons.1 h with rfl | h
        · trivial
        · exact ih _ e h
      · exact ih _ e h
    | some (g, j + 1, v) =>
      simp only [inForce] at h
      split at h
      · rcases List.mem_cons.1 h with rfl | h
        · trivial
        · exact ih _ e h
      · exact ih _ e h

/-- the search of the top groups -/
theorem runGroups_tree (mf : MatchFns) (id : List Str → GId) (lines : List Str) (hne : lines ≠ []) (hl : ∀ t ∈ lines, '\n' ∉ t) (env : Env)
    (tops : List TGroup) (hT : groupsOK tops) (gs : List Grp) (hb : BuiltAll id [] tops gs) (readss : List Reading)
    (hr : All2 (fun T reads => All2 (ReadsIn (T.listing [])) lines reads) tops readss) :
    ∃ raws hits, runGroups mf (dataText (join c!"\n" lines)) gs env = .ok (env, raws) ∧
      (((raws.filter (fun r => !r.isEmpty)).map (fun r => (sortRaw r).map (fun kv => kv.2.map (toHit env)))).flatten = (hits.map (toHit env)).map ([·])) ∧
      All2 (fun h e => ∃ T ∈ tops, ∃ reads, All2 (ReadsIn (T.listing [])) lines reads ∧ HitOfRead id reads h e) hits (readss.flatMap (inForce [])) := by
  induction hr generalizing gs with
  | nil =>
    rw [BuiltAll] at hb
    subst hb
    exact ⟨[], [], rfl, rfl, .nil⟩
  | @cons T reads tops readss hr1 hrs ih =>
    obtain ⟨g, gs', rfl, hb1, hb2⟩ := hb
    obtain ⟨h1, h2, h3⟩ := hT
    obtain ⟨raws, hits, e1, e2, e3⟩ := ih h3 gs' hb2
    have hlen := all2_len hr1
    obtain ⟨log, hrun, hlog⟩ := runRe_tree mf id (T.listing []) (fun x hx => (listing_names [] T h1 x hx).2) lines hne hl reads hr1 env [] T h1 g hb1 0
      (Nat.zero_le _) rfl (fun x hx => hx) (fun x hx _ => hx)
    obtain ⟨hits1, hs1, hs2⟩ := sorted_log id lines reads hlen _ log hlog (by
      intro k gg j v hk
      have hklt : k < reads.length := (List.getElem?_eq_some_iff.1 hk).1
      obtain ⟨r, hr1', hr2⟩ := all2_get hr1 k lines[k] (List.getElem?_eq_getElem (by omega))
      rw [hk] at hr1'
      cases hr1'
      obtain ⟨⟨ls, l, h1, h2, h3⟩, _⟩ := hr2
      have := listing_prefix _ _ _ h1
      refine ⟨this, ?_⟩
      intro e
      simp only [e] at this
      have := this.length_le
      simp at this)
    have hp0 : posOf lines 0 = 0 := rfl
    rw [hp0] at hrun
    have hsort : (sortRaw (logDict [] log)).map (fun kv => kv.2.map (toHit env)) = (hits1.map (toHit env)).map ([·]) := by
      have : (sortRaw (logDict [] log)).map (fun kv => kv.2.map (toHit env)) = ((sortRaw (logDict [] log)).map Prod.snd).map (List.map (toHit env)) := by
        rw [List.map_map]; rfl
      rw [this, hs1]
      simp [List.map_map, Function.comp_def]
    refine ⟨logDict [] log :: raws, hits1 ++ hits, ?_, ?_, ?_⟩
    · simp only [runGroups, hrun, ok_bind, e1, pure_ok]
    · have hgen : ∀ r : RawDict, (sortRaw r).map (fun kv => kv.2.map (toHit env)) = (hits1.map (toHit env)).map ([·]) →
          (((r :: raws).filter (fun r => !r.isEmpty)).map (fun r => (sortRaw r).map (fun kv => kv.2.map (toHit env)))).flatten =
            ((hits1 ++ hits).map (toHit env)).map ([·]) := by
        intro r hr
        cases r with
        | nil =>
          have h0 : hits1 = [] := by
            simp only [sortRaw, List.foldr_nil, List.map_nil] at hr
            have := hr.symm
            simpa using this
          rw [h0]
          simpa using e2
        | cons a r =>
          simp only [List.filter_cons, List.isEmpty_cons, Bool.not_false, if_true, List.map_cons, List.flatten_cons, e2, hr, List.map_append]
      exact hgen _ hsort
    · rw [List.flatMap_cons]
      refine all2_append ?_ ?_
      · have := all2_imp_map (R' := fun h e => ∃ T' ∈ T :: tops, ∃ reads, All2 (ReadsIn (T'.listing [])) lines reads ∧ HitOfRead id reads h e) (fun x => x)
          (fun a b hab => ⟨T, by simp, reads, hr1, hab⟩) hs2
        simpa using this
      · have := all2_imp_map (R' := fun h e => ∃ T' ∈ T :: tops, ∃ reads, All2 (ReadsIn (T'.listing [])) lines reads ∧ HitOfRead id reads h e) (fun x => x)
          (fun a b hab => by
            obtain ⟨T', ht, rest⟩ := hab
            exact ⟨T', by simp [ht], rest⟩) e3
        simpa using this

theorem mem_listings (p : List Str) (tops : List TGroup) (T : TGroup) (hT : T ∈ tops) : ∀ x ∈ T.listing p, x ∈ listings p tops := by
  induction tops with
  | nil => cases hT
  | cons c cs ih =>
    intro x hx
    simp only [listings, List.mem_append]
    rcases List.mem_cons.1 hT with rfl | h
    · exact Or.inl hx
    · exact Or.inr (ih h x hx)

theorem groupsOK_mem (tops : List TGroup) (h : groupsOK tops) (T : TGroup) (hT : T ∈ tops) : T.OK := by
  induction tops with
  | nil => cases hT
  | cons c cs ih =>
    obtain ⟨h1, _, h3⟩ := h
    rcases List.mem_cons.1 hT with rfl | hT
    · exact h1
    · exact ih h3 hT

theorem readss_of_clear (tops : List TGroup) (lines : List Str) (h : ∀ T ∈ tops, ∀ t ∈ lines, ∃ r, ReadsIn (T.listing []) t r) :
    ∃ readss, All2 (fun T reads => All2 (ReadsIn (T.listing [])) lines reads) tops readss := by
  induction tops with
  | nil => exact ⟨[], .nil⟩
  | cons T tops ih =>
    obtain ⟨rs, hrs⟩ := ih (fun T' h' => h T' (by simp [h']))
    have : ∀ ls : List Str, (∀ t ∈ ls, ∃ r, ReadsIn (T.listing []) t r) → ∃ reads, All2 (ReadsIn (T.listing [])) ls reads := by
      intro ls
      induction ls with
      | nil => intro _; exact ⟨[], .nil⟩
      | cons t ts ih =>
        intro h
        obtain ⟨r, hr⟩ := h t (by simp)
        obtain ⟨rs, hrs⟩ := ih (fun t' h' => h t' (by simp [h']))
        exact ⟨r :: rs, .cons hr hrs⟩
    obtain ⟨reads, hreads⟩ := this lines (h T (by simp))
    exact ⟨reads :: rs, .cons hreads hrs⟩

/-! ## One text -/

theorem parse_tree (mf : MatchFns) (gf : GroupFns) (toInt : Bool) (tops : List TGroup) (hT : groupsOK tops) (hap : NamesApart tops) (gs : List Grp)
    (hb : BuiltAll (idOf tops) [] tops gs) (d : Str) (hc : ClearIn tops d) (env : Env) :
    ∃ v, MeansTree toInt tops d v ∧ (parseText mf gf toInt [] gs (dataText d) env (.dict [])).map (·.results) = .ok v := by
  obtain ⟨readss, hr⟩ := readss_of_clear tops _ hc
  obtain ⟨raws, hits, e1, e2, e3⟩ := runGroups_tree mf (idOf tops) (splitC '\n' d) (splitC_ne_nil '\n' d) (fun t ht => splitC_no_sep '\n' d t ht) env tops hT gs hb
    readss hr
  rw [join_splitC] at e1
  obtain ⟨D, hD⟩ := desk_total ⟨[], [], []⟩ (readss.flatMap (inForce [])) (by
    intro e he
    obtain ⟨rs, _, he⟩ := List.mem_flatMap.1 he
    exact inForce_ordinary [] rs e he)
  refine ⟨_, ⟨readss, D, hr, hD, rfl⟩, ?_⟩
  have ht : All2 (Tells toInt ((listings [] tops).map Prod.fst) (idOf tops) (fun _ => [])) (hits.map (toHit env)) (readss.flatMap (inForce [])) :=
    all2_imp_map _ (fun h e hh => by
      obtain ⟨T, hTm, reads, hrr, hh⟩ := hh
      exact tells_read toInt tops hap T (mem_listings [] tops T hTm) (groupsOK_mem tops hT T hTm) _ reads hrr env h e hh) e3
  have h85 := C85_nested_groups toInt gf env.vars env.gvars _ _ _ (groups_ok toInt tops hT) _ _ ht
  rw [hD] at h85
  simp only [parseText, e1, ok_bind]
  rw [makeResults_flatten, e2]
  exact h85

/-! ## C87 -/

/-- C87. A template with nested groups (of any depth and number) whose lines are made of words and plain variables: loading it succeeds, and
for every text in which no line can be read as two lines of a top group and the groups inside, and for all functions and variables
around, the search and the results machine give what the template means. -/
theorem C87_nested_template (ctx : LoadCtx) (mf : MatchFns) (gf : GroupFns) (toInt : Bool) (tops : List TGroup) (hT : groupsOK tops) (hap : NamesApart tops) :
    ∃ gs, loadGroups ctx c!"." 0 0 (xmls tops) = .ok gs ∧
      ∀ d, ClearIn tops d → ∀ env, ∃ v, MeansTree toInt tops d v ∧
        (parseText mf gf toInt [] (gs.map (·.grp)) (dataText d) env (.dict [])).map (·.results) = .ok v := by
  obtain ⟨gs, h1, h2⟩ := loadGroups_tree ctx (idOf tops) 0 0 tops hT (ids_tops tops hT)
  exact ⟨gs, h1, fun d hc env => parse_tree mf gf toInt tops hT hap _ h2 d hc env⟩

mutual
theorem listing_unique (p : List Str) (T : TGroup) (hT : T.OK) (x y) (hx : x ∈ T.listing p) (hy : y ∈ T.listing p) (e : x.1 = y.1) : x = y := by
  match T with
  | .mk n ls pad cs tail =>
    have hlong : ∀ z ∈ listings (p ++ [n]) cs, z.1 ≠ p ++ [n] := by
      intro z hz e
      obtain ⟨m, _, hm⟩ := listings_prefix _ _ _ hz
      rw [e] at hm
      have := hm.length_le
      simp at this
    simp only [TGroup.listing, List.mem_cons] at hx hy
    rcases hx with rfl | hx <;> rcases hy with rfl | hy
    · rfl
    · exact absurd e.symm (hlong y hy)
    · exact absurd e (hlong x hx)
    · exact listings_unique (p ++ [n]) cs hT.2.2.2.2.2 x y hx hy e
theorem listings_unique (p : List Str) (cs : List TGroup) (hcs : groupsOK cs) (x y) (hx : x ∈ listings p cs) (hy : y ∈ listings p cs) (e : x.1 = y.1) : x = y := by
  match cs with
  | [] => cases hx
  | c :: cs =>
    obtain ⟨h1, h2, h3⟩ := hcs
    simp only [listings, List.mem_append] at hx hy
    rcases hx with hx | hx <;> rcases hy with hy | hy
    · exact listing_unique p c h1 x y hx hy e
    · obtain ⟨m, hm, hmp⟩ := listings_prefix _ _ _ hy
      rw [← e] at hmp
      rw [← snoc_prefix_inj p _ _ _ (listing_prefix _ _ _ hx) hmp] at hm
      exact absurd hm h2
    · obtain ⟨m, hm, hmp⟩ := listings_prefix _ _ _ hx
      rw [e] at hmp
      rw [← snoc_prefix_inj p _ _ _ (listing_prefix _ _ _ hy) hmp] at hm
      exact absurd hm h2
    · exact listings_unique p cs h3 x y hx hy e
end

/-- C87. A text has only one meaning. -/
theorem C87_one_meaning (toInt : Bool) (tops : List TGroup) (hT : groupsOK tops) (d : Str) (v v' : Val) (h : MeansTree toInt tops d v)
    (h' : MeansTree toInt tops d v') : v = v' := by
  obtain ⟨readss, D, h1, h2, rfl⟩ := h
  obtain ⟨readss', D', h1', h2', rfl⟩ := h'
  have hone : ∀ T ∈ tops, ∀ t r r', ReadsIn (T.listing []) t r → ReadsIn (T.listing []) t r' → r = r' := by
    intro T hTm t r r' hr hr'
    have hun : ∀ x ∈ T.listing [], ∀ y ∈ T.listing [], x.1 = y.1 → x = y := fun x hx y hy e =>
      listing_unique [] T (groupsOK_mem tops hT T hTm) x y hx hy e
    match r, r' with
    | none, none => rfl
    | none, some (g, j, v) =>
      obtain ⟨⟨ls, l, a, b, c⟩, _⟩ := hr'
      exact absurd c (hr g ls a l (List.mem_of_getElem? b) v)
    | some (g, j, v), none =>
      obtain ⟨⟨ls, l, a, b, c⟩, _⟩ := hr
      exact absurd c (hr' g ls a l (List.mem_of_getElem? b) v)
    | some (g, j, v), some (g', j', v') =>
      obtain ⟨⟨ls, l, a, b, c⟩, hu⟩ := hr
      obtain ⟨⟨ls', l', a', b', c'⟩, hu'⟩ := hr'
      obtain ⟨rfl, rfl⟩ := hu' g ls j l v a b c
      have := hun _ a _ a' rfl
      simp only [Prod.mk.injEq, true_and] at this
      subst this
      rw [b] at b'
      cases b'
      rw [fits_unique l ((listing_names [] T (groupsOK_mem tops hT T hTm) _ a).2 l (List.mem_of_getElem? b)) t v v' c c']
  have hlist : ∀ T ∈ tops, ∀ (ts : List Str) (rs rs' : Reading), All2 (ReadsIn (T.listing [])) ts rs → All2 (ReadsIn (T.listing [])) ts rs' → rs = rs' := by
    intro T hTm ts rs rs' hr hr'
    induction hr generalizing rs' with
    | nil => cases hr'; rfl
    | cons h1 _ ih =>
      cases hr' with
      | cons h1' h2' => rw [hone T hTm _ _ _ h1 h1', ih _ h2']
  have hall : readss = readss' := by
    have : ∀ (ts : List TGroup) (rs rs' : List Reading), (∀ T ∈ ts, T ∈ tops) →
        All2 (fun T reads => All2 (ReadsIn (T.listing [])) (splitC '\n' d) reads) ts rs →
        All2 (fun T reads => All2 (ReadsIn (T.listing [])) (splitC '\n' d) reads) ts rs' → rs = rs' := by
      intro ts rs rs' hts hr hr'
      induction hr generalizing rs' with
      | nil => cases hr'; rfl
      | cons h1 _ ih =>
        cases hr' with
        | cons h1' h2' => rw [hlist _ (hts _ (by simp)) _ _ _ h1 h1', ih _ (fun T h => hts T (by simp [h])) h2']
    exact this tops readss readss' (fun T h => h) h1 h1'
  subst hall
  rw [h2] at h2'
  cases h2'
  rfl

/-! ## The parser object -/

theorem groupsOf_range (t : Tpl) : groupsOf t (List.range t.groups.length) = .ok (t.groups.map (·.grp)) := by
  have key : ∀ (pre gs : List TopGroup), t.groups = pre ++ gs → groupsOf t (List.range' pre.length gs.length) = .ok (gs.map (·.grp)) := by
    intro pre gs
    induction gs generalizing pre with
    | nil => intro _; rfl
    | cons g gs ih =>
      intro h
      have h1 : t.groups[pre.length]? = some g := by rw [h]; simp
      have h2 := ih (pre ++ [g]) (by simp [h])
      simp only [List.length_append, List.length_singleton] at h2
      simp only [List.length_cons, List.range'_succ, groupsOf, h1, h2, ok_bind, pure_ok, List.map_cons]
  have := key [] t.groups rfl
  rw [List.range_eq_range']
  exact this

/-- What one text gives, each of many texts gives: the parser object with the template, any texts in any inputs. -/
theorem parseOne_each' (E : Engine) (M : Str → Val → Prop) (C : Str → Prop) (gs : List TopGroup)
    (hone : ∀ d, C d → ∀ env, ∃ v w, M d w ∧
      (parseText E.mf E.gf E.toInt [] (gs.map (·.grp)) (dataText d) env (.dict [])).map (·.results) = .ok v ∧ formDatum v = .ok w) (tname : Str) (vars gvars lookups ovars olookups)
    (inputs : Dict Str (List Str)) (hc : ∀ i ∈ inputs, ∀ d ∈ i.2, C d) :
    ∃ o vs, parseOne E ⟨[⟨tname, gs, inputs.map (fun i => (i.1, ⟨i.2.map (fun d => ⟨.text, .str d⟩), List.range gs.length, [], .dict []⟩)), vars, [], [],
        lookups, [], c!"per_input", .list []⟩], ovars, olookups, gvars⟩ = .ok o ∧
      All2 M (inputs.flatMap (·.2)) vs ∧ o.templates.map (·.results) = [.list vs] := by
  -- one text
  have hone' : ∀ (t : Tpl) (g : Dict Str Val) (inp : TInput) (d : Str), t.groups = gs →
      t.vtr = [] → t.varFns = [] → inp.groups = List.range gs.length → inp.functions = [] → C d →
      ∃ v w g', M d w ∧ parseDatum E t inp ⟨.text, .str d⟩ (.dict []) g = .ok (v, g') ∧ formDatum v = .ok w := by
    intro t g inp d h1 h2 h3 h4 h5 hcl
    obtain ⟨v, w, hv, hp, hfd⟩ := hone d hcl ⟨t.vars, g⟩
    cases hpt : parseText E.mf E.gf E.toInt [] (gs.map (·.grp)) (dataText d) ⟨t.vars, g⟩ (.dict []) with
    | error e => rw [hpt] at hp; cases hp
    | ok ms =>
      rw [hpt] at hp
      simp only [Except.map, Except.ok.injEq] at hp
      refine ⟨v, w, ms.gvars, hv, ?_, hfd⟩
      · have hg : groupsOf t inp.groups = .ok (gs.map (·.grp)) := by rw [h4, ← h1]; exact groupsOf_range t
        simp [parseDatum, dataOf, h2, h3, h5, runVarFns, runInFns, hg, hpt, ok_bind, pure_ok, hp]
  -- all texts
  have hall : ∀ (t : Tpl), t.groups = gs → t.vtr = [] → t.varFns = [] →
      ∀ (jobs : List (TInput × Datum)) (ds : List Str) (g : Dict Str Val),
      All2 (fun j d => j.1.groups = List.range gs.length ∧ j.1.functions = [] ∧ j.2 = ⟨.text, .str d⟩) jobs ds → (∀ d ∈ ds, C d) →
      ∃ vs g', EachOf E t jobs g g' vs ∧ All2 M ds vs := by
    intro t h1 h2 h3 jobs ds g hj
    induction hj generalizing g with
    | nil => intro _; exact ⟨[], g, .nil g, .nil⟩
    | @cons j d jobs ds hj _ ih =>
      intro hcl
      obtain ⟨inp, x⟩ := j
      obtain ⟨h4, h5, rfl⟩ := hj
      obtain ⟨_, v, g1, hm, hp, hf⟩ := hone' t g inp d h1 h2 h3 h4 h5 (hcl d (by simp))
      obtain ⟨vs, g2, he, hms⟩ := ih g1 (fun d' h' => hcl d' (by simp [h']))
      exact ⟨v :: vs, g2, .cons hp hf he, .cons hm hms⟩
  generalize ht : (⟨tname, gs,
    inputs.map (fun i => (i.1, ⟨i.2.map (fun d => ⟨.text, .str d⟩), List.range gs.length, [], .dict []⟩)), vars, [], [],
    lookups, [], c!"per_input", .list []⟩ : Tpl) = t
  have hjobs : All2 (fun (j : TInput × Datum) d => j.1.groups = List.range gs.length ∧ j.1.functions = [] ∧ j.2 = ⟨.text, .str d⟩)
      (t.inputs.flatMap (fun i => i.2.data.map (fun d => (i.2, d)))) (inputs.flatMap (·.2)) := by
    subst ht
    clear hc
    induction inputs with
    | nil => exact .nil
    | cons i is ih =>
      obtain ⟨n, ds⟩ := i
      simp only [List.map_cons, List.flatMap_cons]
      generalize hinp : (⟨ds.map (fun d => ⟨.text, .str d⟩), List.range gs.length, [], .dict []⟩ : TInput) = inp at *
      have hd : inp.data = ds.map (fun d => ⟨.text, .str d⟩) := by rw [← hinp]
      have h4 : inp.groups = List.range gs.length := by rw [← hinp]
      have h5 : inp.functions = [] := by rw [← hinp]
      clear hd hinp
      induction ds with
      | nil => exact ih
      | cons d ds ihd => exact .cons ⟨h4, h5, rfl⟩ ihd
  obtain ⟨vs, g', he, hm⟩ := hall t (by rw [← ht]) (by rw [← ht]) (by rw [← ht]) _ _ gvars hjobs (by
    intro d hd
    obtain ⟨i, hi, hd⟩ := List.mem_flatMap.1 hd
    exact hc i hi d hd)
  have hp := (C33_per_input_entries E t { t with results := .list ([] ++ vs) } gvars g' (by rw [← ht]) [] (by rw [← ht])).2
    ⟨vs, he, by
      have := EachOf_length _ _ _ _ _ _ he
      rw [this]
      simp [List.length_flatMap], rfl⟩
  have hout : runOutputs E { t with results := .list ([] ++ vs) } = .ok { t with results := .list ([] ++ vs) } :=
    runOutputs_nil E _ (by rw [← ht])
  refine ⟨⟨[{ t with results := .list ([] ++ vs) }], ovars, olookups, g'⟩, vs, ?_, hm, by simp⟩
  simp only [parseOne, parseAllOne, hp, ok_bind, pure_ok, runOutputsAll, hout]

/-- the same for results without anonymous records -/
theorem parseOne_each (E : Engine) (M : Str → Val → Prop) (C : Str → Prop) (gs : List TopGroup)
    (hone : ∀ d, C d → ∀ env, ∃ v, M d v ∧ (parseText E.mf E.gf E.toInt [] (gs.map (·.grp)) (dataText d) env (.dict [])).map (·.results) = .ok v)
    (hanon : ∀ d v, M d v → ∃ kvs, v = .dict kvs ∧ Key.s anon ∉ Dict.keys kvs) (tname : Str) (vars gvars lookups ovars olookups)
    (inputs : Dict Str (List Str)) (hc : ∀ i ∈ inputs, ∀ d ∈ i.2, C d) :
    ∃ o vs, parseOne E ⟨[⟨tname, gs, inputs.map (fun i => (i.1, ⟨i.2.map (fun d => ⟨.text, .str d⟩), List.range gs.length, [], .dict []⟩)), vars, [], [],
        lookups, [], c!"per_input", .list []⟩], ovars, olookups, gvars⟩ = .ok o ∧
      All2 M (inputs.flatMap (·.2)) vs ∧ o.templates.map (·.results) = [.list vs] := by
  refine parseOne_each' E M C gs ?_ tname vars gvars lookups ovars olookups inputs hc
  intro d hd env
  obtain ⟨v, h1, h2⟩ := hone d hd env
  refine ⟨v, v, h1, h2, ?_⟩
  obtain ⟨kvs, rfl, hk⟩ := hanon d v h1
  have := (Dict.get?_eq_none_iff kvs (.s anon)).2 hk
  simp [formDatum, this, pure_ok]

theorem keys_inLast (ks : List Key) (φ : List Val → List Val) (d : Dict Key Val) (k : Key) (h : k ∈ Dict.keys (inLast ks φ d)) :
    k ∈ Dict.keys d ∨ k ∈ ks := by
  match ks with
  | [] => exact Or.inl h
  | [a] =>
    rw [inLast, Dict.mem_keys_set] at h
    rcases h with h | h
    · right; simp [h]
    · exact Or.inl h
  | a :: b :: ks =>
    rw [inLast, Dict.mem_keys_set] at h
    rcases h with h | h
    · right; simp [h]
    · exact Or.inl h

theorem keys_treeOf (toInt : Bool) (dflt : List Str → Dict Key Val) (recs : List NRec) (k : Key) (h : k ∈ Dict.keys (treeOf toInt dflt recs)) :
    ∃ r ∈ recs, ∃ n ∈ r.group, k = pathKey toInt n := by
  induction recs with
  | nil => cases h
  | cons r recs ih =>
    simp only [treeOf, List.foldr_cons, addRec] at h ih
    rcases keys_inLast _ _ _ k h with h | h
    · obtain ⟨r', h1, h2⟩ := ih h
      exact ⟨r', by simp [h1], h2⟩
    · obtain ⟨n, hn, rfl⟩ := List.mem_map.1 h
      exact ⟨r, by simp, n, hn, rfl⟩

theorem desk_groups (D D' : Desk) (evs : List NEv) (h : D.run evs = some D') : ∀ r ∈ D'.recs, (∃ r' ∈ D.recs, r'.group = r.group) ∨ ∃ e ∈ evs, e.group = r.group := by
  induction evs generalizing D with
  | nil => simp only [Desk.run, Option.some.injEq] at h; subst h; intro r hr; exact Or.inl ⟨r, hr, rfl⟩
  | cons e evs ih =>
    simp only [Desk.run, Option.bind_eq_some_iff] at h
    obtain ⟨D1, h1, h2⟩ := h
    intro r hr
    rcases ih D1 h2 r hr with ⟨r', hr', eg⟩ | ⟨e', he', eg⟩
    · have hstep : (∃ r2 ∈ D.recs, r2.group = r'.group) ∨ e.group = r'.group := by
        cases e with
        | bad g => simp only [Desk.step, Option.some.injEq] at h1; subst h1; exact Or.inl ⟨r', hr', rfl⟩
        | stop g =>
          simp only [Desk.step] at h1
          split at h1
          · simp only [Option.some.injEq] at h1; subst h1; exact Or.inl ⟨r', hr', rfl⟩
          · split at h1
            · cases h1
            · simp only [Option.some.injEq] at h1; subst h1; exact Or.inl ⟨r', hr', rfl⟩
        | start g d =>
          simp only [Desk.step] at h1
          split at h1
          · simp only [Option.some.injEq] at h1; subst h1; exact Or.inl ⟨r', hr', rfl⟩
          · simp only [Option.some.injEq] at h1
            subst h1
            rcases List.mem_cons.1 hr' with rfl | hr'
            · exact Or.inr rfl
            · exact Or.inl ⟨r', hr', rfl⟩
        | line g d =>
          simp only [Desk.step] at h1
          split at h1
          · simp only [Option.some.injEq] at h1; subst h1; exact Or.inl ⟨r', hr', rfl⟩
          · split at h1
            · simp only [Option.some.injEq] at h1; subst h1; exact Or.inl ⟨r', hr', rfl⟩
            · rename_i r0 rs hrec
              split at h1
              · simp only [Option.some.injEq] at h1
                subst h1
                rcases List.mem_cons.1 hr' with rfl | hr'
                · exact Or.inl ⟨r0, by rw [hrec]; simp, rfl⟩
                · exact Or.inl ⟨r', by rw [hrec]; simp [hr'], rfl⟩
              · split at h1
                · simp only [Option.some.injEq] at h1
                  subst h1
                  rcases List.mem_cons.1 hr' with rfl | hr'
                  · exact Or.inr rfl
                  · exact Or.inl ⟨r', by rw [hrec]; exact hr', rfl⟩
                · simp only [Option.some.injEq] at h1; subst h1; exact Or.inl ⟨r', hr', rfl⟩
      rcases hstep with ⟨r2, h3, h4⟩ | h3
      · exact Or.inl ⟨r2, h3, h4.trans eg⟩
      · exact Or.inr ⟨e, by simp, h3.trans eg⟩
    · exact Or.inr ⟨e', by simp [he'], eg⟩

theorem inForce_groups (S : List (List Str)) (rs : Reading) (e : NEv) (h : e ∈ inForce S rs) : ∃ j v, some (e.group, j, v) ∈ rs := by
  induction rs generalizing S with
  | nil => cases h
  | cons r rs ih =>
    have lift : (∃ j v, some (e.group, j, v) ∈ rs) → ∃ j v, some (e.group, j, v) ∈ r :: rs := by
      rintro ⟨j, v, h⟩; exact ⟨j, v, by simp [h]⟩
    match r with
    | none => exact lift (ih S h)
    | some (g, 0, v) =>
      simp only [inForce] at h
      split at h
      · rcases List.mem_cons.1 h with rfl | h
        · exact ⟨0, v, by simp [NEv.group]⟩
        · exact lift (ih _ h)
      · exact lift (ih _ h)
    | some (g, j + 1, v) =>
      simp only [inForce] at h
      split at h
      · rcases List.mem_cons.1 h with rfl | h
        · exact ⟨j + 1, v, by simp [NEv.group]⟩
        · exact lift (ih _ h)
      · exact lift (ih _ h)

theorem means_anon (toInt : Bool) (tops : List TGroup) (hT : groupsOK tops) (d : Str) (v : Val) (h : MeansTree toInt tops d v) :
    ∃ kvs, v = .dict kvs ∧ Key.s anon ∉ Dict.keys kvs := by
  obtain ⟨readss, D, h1, h2, rfl⟩ := h
  refine ⟨_, rfl, ?_⟩
  intro hk
  obtain ⟨r, hr, n, hn, e⟩ := keys_treeOf _ _ _ _ hk
  rcases desk_groups _ _ _ h2 r hr with ⟨r', h, _⟩ | ⟨ev, hev, eg⟩
  · cases h
  · obtain ⟨rs, hrs, hev⟩ := List.mem_flatMap.1 hev
    obtain ⟨j, vals, hm⟩ := inForce_groups [] rs ev hev
    obtain ⟨i, hi⟩ := List.getElem?_of_mem hrs
    have hlen := all2_len h1
    have hilt : i < readss.length := (List.getElem?_eq_some_iff.1 hi).1
    have hTm : tops[i]? = some (tops[i]'(by omega)) := List.getElem?_eq_getElem _
    obtain ⟨rs', hi', hreads⟩ := all2_get h1 i _ hTm
    rw [hi] at hi'
    cases hi'
    obtain ⟨k, hk⟩ := List.getElem?_of_mem hm
    have hlen' := all2_len hreads
    have hklt : k < rs.length := (List.getElem?_eq_some_iff.1 hk).1
    obtain ⟨rr, hk', hread⟩ := all2_get hreads k _ (List.getElem?_eq_getElem (by omega))
    rw [hk] at hk'
    cases hk'
    obtain ⟨⟨ls, l, a, _, _⟩, _⟩ := hread
    have := (listing_names [] _ (groupsOK_mem tops hT _ (List.mem_of_getElem? hTm)) _ a).1
    rw [eg] at this
    rcases this n hn with h | h
    · cases h
    · unfold pathKey at e
      split at e
      · cases e
      · exact h.2.2.1 (Key.s.inj e).symm

/-- C87, the parser object: the template is loaded, any texts are given to it in any inputs, `parse` with one process succeeds, and
the results of the template are the meanings of the texts, in order. -/
theorem C87_object (ctx : LoadCtx) (E : Engine) (tops : List TGroup) (hT : groupsOK tops) (hap : NamesApart tops) (gs : List TopGroup)
    (hload : loadGroups ctx c!"." 0 0 (xmls tops) = .ok gs) (tname : Str) (vars gvars lookups ovars olookups)
    (inputs : Dict Str (List Str)) (hc : ∀ i ∈ inputs, ∀ d ∈ i.2, ClearIn tops d) :
    ∃ o vs, parseOne E ⟨[⟨tname, gs, inputs.map (fun i => (i.1, ⟨i.2.map (fun d => ⟨.text, .str d⟩), List.range gs.length, [], .dict []⟩)), vars, [], [],
        lookups, [], c!"per_input", .list []⟩], ovars, olookups, gvars⟩ = .ok o ∧
      All2 (MeansTree E.toInt tops) (inputs.flatMap (·.2)) vs ∧ o.templates.map (·.results) = [.list vs] := by
  obtain ⟨gs', h1, h2⟩ := C87_nested_template ctx E.mf E.gf E.toInt tops hT hap
  rw [hload] at h1
  cases h1
  exact parseOne_each E (MeansTree E.toInt tops) (ClearIn tops) gs h2 (means_anon E.toInt tops hT) tname vars gvars lookups ovars olookups inputs hc

/-! A template and a text that meet the hypotheses. -/
namespace Ex

/-- `vlan {{ id }}` -/
def wl3 : TplLine := ⟨c!" ", [([], .word c!"vlan"), (c!" ", .var [] c!"id" [])], []⟩
/-- interfaces with vlans in them, and another top group with the same lines -/
def wtops : List TGroup :=
  [.mk c!"interfaces" [wl1, wl2] c!" " [.mk c!"vlans" [wl3] c!" " [] c!"\n"] c!"\n", .mk c!"ports" [wl1] [] [] []]
/-- a vlan before every interface, then two interfaces -/
def wtext2 : Str := c!" vlan 9\ninterface a\n vlan 1\n mtu 3\ninterface b\n vlan 2"

theorem wl3_ok : wl3.OK := by
  have w : ∀ s : Str, s ≠ [] → s.all (fun c => !isSpace c) = true → Word s := by
    intro s h1 h2
    exact ⟨h1, fun c hc => by simpa using List.all_eq_true.1 h2 c hc⟩
  refine ⟨⟨rfl, ⟨w _ (by decide) (by decide), by decide⟩, ?_⟩, ?_, by simp [wl3], by decide, by decide, by decide, ?_, ?_⟩
  · intro i hi
    simp only [List.mem_cons, List.not_mem_nil, or_false] at hi
    subst hi
    exact ⟨⟨by decide, by intro c hc; left; simpa using hc⟩, by decide, by decide, by intro c cs e; cases e; decide, by decide, by simp⟩
  · intro c hc; left; simpa [wl3] using hc
  · rw [← contains_iff]; decide
  · rw [← List.isPrefixOf_iff_prefix]; decide

theorem wtops_ok : groupsOK wtops := by
  have b1 : ∀ c ∈ c!" ", Blank c := by intro c hc; left; simpa using hc
  have b2 : ∀ c ∈ c!"\n", isSpace c = true := by decide
  have hp : ∀ l ∈ [wl1], l.OK := fun l hl => wl_ok l (by simp at hl; simp [hl])
  have h3 : ∀ l ∈ [wl3], l.OK := fun l hl => by rw [List.mem_singleton] at hl; subst hl; exact wl3_ok
  exact ⟨⟨⟨by decide, by decide, by decide, by decide⟩, by simp, wl_ok, b1, b2,
      ⟨⟨by decide, by decide, by decide, by decide⟩, by simp, h3, b1, b2, trivial⟩, by simp, trivial⟩, by decide,
    ⟨⟨by decide, by decide, by decide, by decide⟩, by simp, hp, by simp, by simp, trivial⟩, by simp, trivial⟩

/-- how the lines are read by the first top group -/
def wreads2 : Reading :=
  [some ([c!"interfaces", c!"vlans"], 0, [(c!"id", c!"9")]), some ([c!"interfaces"], 0, [(c!"name", c!"a")]),
   some ([c!"interfaces", c!"vlans"], 0, [(c!"id", c!"1")]), some ([c!"interfaces"], 1, [(c!"mtu", c!"3")]), some ([c!"interfaces"], 0, [(c!"name", c!"b")]),
   some ([c!"interfaces", c!"vlans"], 0, [(c!"id", c!"2")])]

/-- the readings of a line that is tried with all lines of the groups -/
theorem readsIn_of (groups : List (List Str × List TplLine)) (hok : ∀ x ∈ groups, ∀ l ∈ x.2, l.OK) (t : Str) (ht : '\n' ∉ t)
    (r : Option (List Str × Nat × List (Str × Str)))
    (h : groups.flatMap (fun x => (List.range x.2.length).flatMap (fun j =>
      ((Re.finditer (TplRe (lineAt x.2 j)) (nlText [t])).map (fun m => (x.1, j, m.caps))))) = r.toList) : ReadsIn groups t r := by
  have hmem : ∀ g ls j l v, (g, ls) ∈ groups → ls[j]? = some l → l.Fits t v → (g, j, v) ∈ r.toList := by
    intro g ls j l v hg hj hf
    rw [← h]
    refine List.mem_flatMap.2 ⟨_, hg, List.mem_flatMap.2 ⟨j, List.mem_range.2 (List.getElem?_eq_some_iff.1 hj).1, ?_⟩⟩
    have := (fits_iff l (hok _ hg l (List.mem_of_getElem? hj)) t ht v).1 hf
    obtain ⟨m, hm, rfl⟩ := List.mem_map.1 this
    exact List.mem_map.2 ⟨m, by simpa [lineAt, hj] using hm, rfl⟩
  cases r with
  | none =>
    intro g ls hg l hl v hf
    obtain ⟨j, hj⟩ := List.getElem?_of_mem hl
    have := hmem g ls j l v hg hj hf
    cases this
  | some r =>
    obtain ⟨g, j, v⟩ := r
    refine ⟨?_, ?_⟩
    · have : (g, j, v) ∈ (some (g, j, v)).toList := by simp
      rw [← h] at this
      obtain ⟨x, hx, h2⟩ := List.mem_flatMap.1 this
      obtain ⟨j', hj', h3⟩ := List.mem_flatMap.1 h2
      obtain ⟨m, hm, e⟩ := List.mem_map.1 h3
      simp only [Prod.mk.injEq] at e
      obtain ⟨rfl, rfl, rfl⟩ := e
      have hl := List.getElem?_eq_getElem (List.mem_range.1 hj')
      refine ⟨x.2, x.2[j']'(List.mem_range.1 hj'), hx, hl, ?_⟩
      rw [fits_iff _ (hok _ hx _ (List.getElem_mem _)) t ht]
      refine List.mem_map.2 ⟨m, ?_, rfl⟩
      simpa [lineAt, hl] using hm
    · intro g' ls i l v' hg hi hf
      have := hmem g' ls i l v' hg hi hf
      simp only [Option.toList_some, List.mem_singleton, Prod.mk.injEq] at this
      exact ⟨this.1, this.2.1⟩

theorem wreads2_ok : All2 (fun T reads => All2 (ReadsIn (T.listing [])) (splitC '\n' wtext2) reads) wtops
    [wreads2, [none, some ([c!"ports"], 0, [(c!"name", c!"a")]), none, none, some ([c!"ports"], 0, [(c!"name", c!"b")]), none]] := by
  have e : splitC '\n' wtext2 = [c!" vlan 9", c!"interface a", c!" vlan 1", c!" mtu 3", c!"interface b", c!" vlan 2"] := by decide
  rw [e]
  have ok1 := fun x hx => (listing_names [] _ wtops_ok.1 x hx).2
  have ok2 := fun x hx => (listing_names [] _ wtops_ok.2.2.1 x hx).2
  refine .cons ?_ (.cons ?_ .nil)
  · refine .cons ?_ (.cons ?_ (.cons ?_ (.cons ?_ (.cons ?_ (.cons ?_ .nil))))) <;>
      exact readsIn_of _ ok1 _ (by decide) _ (by decide +kernel)
  · refine .cons ?_ (.cons ?_ (.cons ?_ (.cons ?_ (.cons ?_ (.cons ?_ .nil))))) <;>
      exact readsIn_of _ ok2 _ (by decide) _ (by decide +kernel)

theorem wclear2 : ClearIn wtops wtext2 := by
  intro T hT t ht
  obtain ⟨i, hi⟩ := List.getElem?_of_mem hT
  obtain ⟨rs, _, hrs⟩ := all2_get wreads2_ok i T hi
  obtain ⟨k, hk⟩ := List.getElem?_of_mem ht
  obtain ⟨r, _, hr⟩ := all2_get hrs k t hk
  exact ⟨r, hr⟩

theorem wtops_apart : NamesApart wtops := by
  unfold NamesApart
  decide

end Ex

/-- the hypotheses of C87 are met -/
example : groupsOK Ex.wtops ∧ NamesApart Ex.wtops ∧ ClearIn Ex.wtops Ex.wtext2 := ⟨Ex.wtops_ok, Ex.wtops_apart, Ex.wclear2⟩

/-- What the example means: the vlan before every interface is lost, the mtu line comes after a vlan and still goes into its interface. -/
example : MeansTree false Ex.wtops Ex.wtext2 (.dict [
    (.s c!"interfaces", .list [
      .dict [(.s c!"name", .str c!"a"), (.s c!"vlans", .list [.dict [(.s c!"id", .str c!"1")]]), (.s c!"mtu", .str c!"3")],
      .dict [(.s c!"name", .str c!"b"), (.s c!"vlans", .list [.dict [(.s c!"id", .str c!"2")]])]]),
    (.s c!"ports", .list [.dict [(.s c!"name", .str c!"a")], .dict [(.s c!"name", .str c!"b")]])]) := by
  have h : ∃ D, Desk.run ⟨[], [], []⟩ ([Ex.wreads2, [none, some ([c!"ports"], 0, [(c!"name", c!"a")]), none, none, some ([c!"ports"], 0, [(c!"name", c!"b")]), none]].flatMap
      (inForce [])) = some D := desk_total _ _ (by
    intro e he
    obtain ⟨rs, _, he⟩ := List.mem_flatMap.1 he
    exact inForce_ordinary [] rs e he)
  obtain ⟨D, hD⟩ := h
  refine ⟨_, D, Ex.wreads2_ok, hD, ?_⟩
  have : some (Val.dict (treeOf false (fun _ => []) D.recs)) = (Desk.run ⟨[], [], []⟩ ([Ex.wreads2, [none, some ([c!"ports"], 0, [(c!"name", c!"a")]), none, none,
      some ([c!"ports"], 0, [(c!"name", c!"b")]), none]].flatMap (inForce []))).map (fun D => Val.dict (treeOf false (fun _ => []) D.recs)) := by rw [hD]; rfl
  have h2 := this.trans (b := _) (c := some (Val.dict [
    (.s c!"interfaces", .list [
      .dict [(.s c!"name", .str c!"a"), (.s c!"vlans", .list [.dict [(.s c!"id", .str c!"1")]]), (.s c!"mtu", .str c!"3")],
      .dict [(.s c!"name", .str c!"b"), (.s c!"vlans", .list [.dict [(.s c!"id", .str c!"2")]])]]),
    (.s c!"ports", .list [.dict [(.s c!"name", .str c!"a")], .dict [(.s c!"name", .str c!"b")]])])) (by decide +kernel)
  exact (Option.some.inj h2).symm

/-- the XML elements of the example are the template as it is written -/
example : (xmls Ex.wtops).map (·.text) = [some c!"\ninterface {{ name }}\n mtu {{ mtu }}\n ", some c!"\ninterface {{ name }}\n"] ∧
    (xmls Ex.wtops).map (fun x => x.children.map (·.text)) = [[some c!"\n vlan {{ id }}\n "], []] := by decide

end Props
