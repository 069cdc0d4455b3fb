import Verif.Proofs.Outputs
/-!
# Reading of output tags: attributes
-/

namespace TTP
open Py Spec

theorem update_overlay (d e : Dict Str Val) (hd : Dict.WF d) (he : Dict.WF e) : Dict.update d e = overlay d e := by
  induction e generalizing d with
  | nil =>
    simp only [Dict.update_nil, overlay, List.filter_nil, List.append_nil]
    simp [Dict.get?]
  | cons p e ih =>
    obtain ⟨k, v⟩ := p
    have he' : k ∉ Dict.keys e ∧ Dict.WF e := by
      unfold Dict.WF Dict.keys at he ⊢
      simpa using he
    rw [Dict.update_cons, ih _ (Dict.WF_set _ _ _ hd) he'.2]
    unfold overlay
    by_cases hk : k ∈ Dict.keys d
    · have hset : Dict.set d k v = d.map (fun kv => (kv.1, if kv.1 = k then v else kv.2)) := by
        clear ih he he' e
        induction d with
        | nil => simp [Dict.keys] at hk
        | cons q d ih2 =>
          obtain ⟨j, w⟩ := q
          have hd' : j ∉ Dict.keys d ∧ Dict.WF d := by
            unfold Dict.WF Dict.keys at hd ⊢
            simpa using hd
          rw [Dict.set]
          by_cases hj : j = k
          · subst hj
            rw [if_pos rfl]
            simp only [List.map_cons, if_pos]
            congr 1
            symm
            calc d.map (fun kv => (kv.1, if kv.1 = j then v else kv.2)) = d.map id := by
                  apply List.map_congr_left
                  intro kv hkv
                  have : kv.1 ≠ j := by
                    rintro rfl
                    exact hd'.1 (List.mem_map.2 ⟨kv, hkv, rfl⟩)
                  simp [this]
              _ = d := by simp
          · rw [if_neg hj]
            simp only [List.map_cons, if_neg hj]
            rw [ih2 hd'.2 (by simp [Dict.keys] at hk ⊢; rcases hk with rfl | h; exact absurd rfl hj; exact h)]
      have hkeys : Dict.keys (Dict.set d k v) = Dict.keys d := by
        rw [hset]; unfold Dict.keys; simp
      rw [hkeys, hset, List.filter_cons, if_neg (by simpa using hk), List.map_map]
      congr 1
      apply List.map_congr_left
      intro kv _
      simp only [Function.comp_apply, Dict.get?_cons]
      by_cases h : kv.1 = k
      · rw [if_pos h, if_pos h.symm, h, (Dict.get?_eq_none_iff e k).2 he'.1]; rfl
      · rw [if_neg h, if_neg (fun h' => h h'.symm)]
    · rw [Dict.set_of_not_mem d k v hk, List.filter_cons, if_pos (by simpa using hk), List.map_append, List.append_assoc]
      congr 1
      · apply List.map_congr_left
        intro kv hkv
        rw [Dict.get?_cons, if_neg (by rintro rfl; exact hk (List.mem_map.2 ⟨kv, hkv, rfl⟩))]
      · simp only [List.map_cons, List.map_nil, (Dict.get?_eq_none_iff e k).2 he'.1, Option.getD_none, List.singleton_append, List.cons.injEq, true_and]
        apply List.filter_congr
        intro kv hkv
        have : kv.1 ≠ k := by rintro rfl; exact he'.1 (List.mem_map.2 ⟨kv, hkv, rfl⟩)
        have hmem : kv.1 ∈ Dict.keys (d ++ [(k, v)]) ↔ kv.1 ∈ Dict.keys d := by unfold Dict.keys; simp [this]
        simp only [hmem]

theorem overlay_WF (d e : Dict Str Val) (hd : Dict.WF d) (he : Dict.WF e) : Dict.WF (overlay d e) := by
  rw [← update_overlay d e hd he]
  exact Dict.WF_update _ _ hd

theorem overlay_get (d e : Dict Str Val) (hd : Dict.WF d) (he : Dict.WF e) (n : Str) :
    Dict.get? (overlay d e) n = (Dict.get? e n).or (Dict.get? d n) := by
  rw [← update_overlay d e hd he, Dict.get?_update d e he]

theorem strKeys_entries (d : Dict Key Val) : strKeys d = d.filterMap strEntry := by
  unfold strKeys
  congr 1
  funext kv
  obtain ⟨k, v⟩ := kv
  cases k <;> rfl

theorem strKeys_WF (d : Dict Key Val) (h : Dict.WF d) : Dict.WF (d.filterMap strEntry) := by
  induction d with
  | nil => simp [Dict.WF, Dict.keys]
  | cons p d ih =>
    obtain ⟨k, v⟩ := p
    have h' : k ∉ Dict.keys d ∧ Dict.WF d := by
      unfold Dict.WF Dict.keys at h ⊢
      simpa using h
    cases k with
    | i n => exact ih h'.2
    | s k =>
      rw [List.filterMap_cons]
      simp only [strEntry]
      have := ih h'.2
      unfold Dict.WF Dict.keys at this ⊢
      rw [List.map_cons, List.nodup_cons]
      refine ⟨?_, this⟩
      intro hm
      obtain ⟨q, hq, hq2⟩ := List.mem_map.1 hm
      obtain ⟨r, hr, hr2⟩ := List.mem_filterMap.1 hq
      obtain ⟨rk, rv⟩ := r
      cases rk with
      | i n => simp [strEntry] at hr2
      | s j =>
        simp only [strEntry, Option.some.injEq] at hr2
        subst hr2
        simp only at hq2
        subst hq2
        exact h'.1 (List.mem_map.2 ⟨_, hr, rfl⟩)

theorem attrVals_WF (a : Dict Str Str) (h : Dict.WF a) : Dict.WF (attrVals a) := by
  unfold Dict.WF Dict.keys attrVals at *
  simpa [List.map_map, Function.comp_def] using h

theorem attrVals_get (a : Dict Str Str) (n : Str) : Dict.get? (attrVals a) n = (Dict.get? a n).map .str := by
  induction a with
  | nil => rfl
  | cons p a ih =>
    show Dict.get? ((p.1, .str p.2) :: attrVals a) n = _
    rw [Dict.get?_cons, ih]
    obtain ⟨k, v⟩ := p
    rw [Dict.get?_cons]
    by_cases h : k = n <;> simp [h]

theorem outDefaults_WF : Dict.WF outDefaults := by unfold Dict.WF; decide

/-- replacing one value -/
theorem set_map (d : Dict Str Val) (k : Str) (v : Val) (hd : Dict.WF d) (hk : k ∈ Dict.keys d) :
    Dict.set d k v = d.map (fun kv => if kv.1 = k then (kv.1, v) else kv) := by
  have h := update_overlay d [(k, v)] hd (by unfold Dict.WF Dict.keys; simp)
  rw [Dict.update_cons, Dict.update_nil] at h
  rw [h]
  unfold overlay
  rw [List.filter_cons, if_neg (by simpa using hk), List.filter_nil, List.append_nil]
  apply List.map_congr_left
  intro kv _
  rw [Dict.get?_cons]
  by_cases h : kv.1 = k
  · simp [h]
  · rw [if_neg (fun e => h e.symm), if_neg h]; rfl

theorem outBase_eq (x : Xml) (hx : Dict.WF x.attrib) : outBase x.attrib = outTagAttrs x ∧ Dict.WF (outTagAttrs x) := by
  have ha := attrVals_WF _ hx
  have hup := update_overlay outDefaults (attrVals x.attrib) outDefaults_WF ha
  have hw := overlay_WF outDefaults (attrVals x.attrib) outDefaults_WF ha
  have hfmt : Dict.get? (overlay outDefaults (attrVals x.attrib)) c!"format" = some (.str c!"jinja2") ↔
      Dict.get? x.attrib c!"format" = some c!"jinja2" := by
    rw [overlay_get _ _ outDefaults_WF ha, attrVals_get]
    cases h : Dict.get? x.attrib c!"format" with
    | none =>
      constructor
      · intro h; revert h; decide
      · intro h; cases h
    | some s => simp
  have hload : c!"load" ∈ Dict.keys (overlay outDefaults (attrVals x.attrib)) := by
    rw [← hup, Dict.mem_keys_update]; left; decide
  have e : outBase x.attrib = outTagAttrs x := by
    unfold outBase
    show (if Dict.get? (Dict.update outDefaults (attrVals x.attrib)) c!"format" = some (.str c!"jinja2") then
      Dict.set (Dict.update outDefaults (attrVals x.attrib)) c!"load" (.str c!"text") else Dict.update outDefaults (attrVals x.attrib)) = _
    rw [hup]
    unfold outTagAttrs
    show _ = (overlay outDefaults (attrVals x.attrib)).map _
    by_cases h : Dict.get? x.attrib c!"format" = some c!"jinja2"
    · rw [if_pos (hfmt.2 h), set_map _ _ _ hw hload]
      simp [h]
    · rw [if_neg (fun h' => h (hfmt.1 h'))]
      simp [h]
  refine ⟨e, ?_⟩
  rw [← e]
  unfold outBase
  show Dict.WF (if Dict.get? (Dict.update outDefaults (attrVals x.attrib)) c!"format" = some (.str c!"jinja2") then
      Dict.set (Dict.update outDefaults (attrVals x.attrib)) c!"load" (.str c!"text") else Dict.update outDefaults (attrVals x.attrib))
  rw [hup]
  split
  · exact Dict.WF_set _ _ _ hw
  · exact hw

/-- the attributes of the tag by name -/
theorem outTagAttrs_get (x : Xml) (hx : Dict.WF x.attrib) (n : Str) : Dict.get? (outTagAttrs x) n =
    if n = c!"load" ∧ Dict.get? x.attrib c!"format" = some c!"jinja2" then some (.str c!"text")
    else ((Dict.get? x.attrib n).map Val.str).or (Dict.get? outDefaults n) := by
  have ha := attrVals_WF _ hx
  have hg := overlay_get outDefaults (attrVals x.attrib) outDefaults_WF ha
  rw [← (outBase_eq x hx).1]
  unfold outBase
  show Dict.get? (if Dict.get? (Dict.update outDefaults (attrVals x.attrib)) c!"format" = some (.str c!"jinja2") then
      Dict.set (Dict.update outDefaults (attrVals x.attrib)) c!"load" (.str c!"text") else Dict.update outDefaults (attrVals x.attrib)) n = _
  rw [update_overlay outDefaults _ outDefaults_WF ha, hg, attrVals_get]
  have hfmt : ((Dict.get? x.attrib c!"format").map Val.str).or (Dict.get? outDefaults c!"format") = some (.str c!"jinja2") ↔
      Dict.get? x.attrib c!"format" = some c!"jinja2" := by
    cases h : Dict.get? x.attrib c!"format" with
    | none =>
      constructor
      · intro h; revert h; decide
      · intro h; cases h
    | some s => simp
  by_cases h : Dict.get? x.attrib c!"format" = some c!"jinja2"
  · rw [if_pos (hfmt.2 h)]
    by_cases hn : n = c!"load"
    · subst hn
      rw [Dict.get?_set_self, if_pos ⟨rfl, h⟩]
    · rw [Dict.get?_set_ne _ _ (Ne.symm hn), if_neg (fun e => hn e.1), hg, attrVals_get]
  · rw [if_neg (fun h' => h (hfmt.1 h')), if_neg (fun e => h e.2), hg, attrVals_get]

theorem loadStruct_iff (C : TplCtx) (x : Xml) (hx : Dict.WF x.attrib) (v : Val) : loadStruct C x.text (outBase x.attrib) = .ok v ↔ TagLoad C x v := by
  rw [(outBase_eq x hx).1]
  have hl : ∃ l, Dict.get? (outTagAttrs x) c!"load" = some (.str l) := by
    rw [outTagAttrs_get x hx]
    split
    · exact ⟨_, rfl⟩
    · cases Dict.get? x.attrib c!"load" with
      | none => exact ⟨c!"python", by decide⟩
      | some s => exact ⟨s, rfl⟩
  have hi : (Dict.get? (outTagAttrs x) c!"include").getD .none = .none ↔ Dict.get? x.attrib c!"include" = none := by
    rw [outTagAttrs_get x hx, if_neg (by rintro ⟨h, _⟩; revert h; decide)]
    cases Dict.get? x.attrib c!"include" with
    | none => simp [outDefaults, Dict.get?]
    | some s => simp
  obtain ⟨l, hl⟩ := hl
  unfold loadStruct
  rw [hl]
  simp only [Option.getD_some]
  constructor
  · intro h
    split at h
    · rename_i hc
      cases h
      exact .nothing hc.1 (hi.1 hc.2)
    · rename_i hc
      have hc' : ¬ (x.text.getD [] = [] ∧ Dict.get? x.attrib c!"include" = none) := fun e => hc ⟨e.1, hi.2 e.2⟩
      cases hf : C.loader (lower l) with
      | none => rw [hf] at h; cases h
      | some f => rw [hf] at h; exact .loaded hc' hl hf h
  · intro h
    cases h with
    | nothing h1 h2 => rw [if_pos ⟨h1, hi.2 h2⟩]; rfl
    | loaded h1 h2 h3 h4 =>
      rw [hl] at h2
      cases h2
      rw [if_neg (fun e => h1 ⟨e.1, hi.1 e.2⟩), h3]
      exact h4

theorem outAll_WF (x : Xml) (hx : Dict.WF x.attrib) (load : Val) (hl : ∀ d, load = .dict d → Dict.WF d) : Dict.WF (outAll x load) := by
  have hw := (outBase_eq x hx).2
  unfold outAll
  split
  · rename_i d
    exact overlay_WF _ _ hw (strKeys_WF _ (hl d rfl))
  · exact hw

theorem outAll_eq (x : Xml) (hx : Dict.WF x.attrib) (load : Val) (hl : ∀ d, load = .dict d → Dict.WF d) :
    outMerged (outBase x.attrib) load = outAll x load := by
  have hw := outBase_eq x hx
  rw [hw.1]
  unfold outAll outMerged
  cases load <;> try rfl
  rename_i d
  simp only
  rw [strKeys_entries, update_overlay _ _ hw.2 (strKeys_WF _ (hl d rfl))]

theorem loadOutput_iff (C : TplCtx) (x : Xml) (hx : Dict.WF x.attrib) (hw : ∀ d, TagLoad C x (.dict d) → Dict.WF d)
    (hlow : ∀ load, TagLoad C x load → ∀ n ∈ Dict.keys (outAll x load), lower n ∈ outOptions → lower n = n) (o : Outputter) :
    loadOutput C x = .ok o ↔ ∃ load, TagLoad C x load ∧
      OutputOf C (outAll x load) ⟨none, [], ((Dict.get? (outAll x load) c!"format").map pyStr).getD [], [], none, false⟩ o := by
  unfold loadOutput
  simp only [bind_ok_iff]
  constructor
  · rintro ⟨load, h, h2⟩
    have hl := (loadStruct_iff C x hx load).1 h
    have hd : ∀ d, load = .dict d → Dict.WF d := fun d e => hw d (e ▸ hl)
    refine ⟨load, hl, ?_⟩
    rw [outAll_eq x hx load hd] at h2
    exact (outAttrs_iff C _ (outAll_WF x hx load hd) (hlow load hl) _ _).1 h2
  · rintro ⟨load, hl, h2⟩
    have hd : ∀ d, load = .dict d → Dict.WF d := fun d e => hw d (e ▸ hl)
    refine ⟨load, (loadStruct_iff C x hx load).2 hl, ?_⟩
    rw [outAll_eq x hx load hd]
    exact (outAttrs_iff C _ (outAll_WF x hx load hd) (hlow load hl) _ _).2 h2

theorem asText_ok (v : Val) (s : Str) : asText v = .ok s ↔ v = .str s := by
  cases v <;> simp [asText, throw_err, pure_ok]

theorem tagAttr_step (C : TplCtx) (W : OutFn.OutWorld) (attrs : Dict Str Val) (n : Str) (v : Val) (a : Dict Str Val)
    (hl : lower n ∈ outOptions → lower n = n) (hv : Dict.get? attrs n = some v) (h : OutFn.tagAttr C W attrs n v = .ok a) :
    (∃ v', Dict.get? a n = some v' ∧ AttrFor C W.strftime n v v') ∧ ∀ m, m ≠ n → Dict.get? a m = Dict.get? attrs m := by
  have key : ∀ w, Dict.get? (Dict.set attrs n w) n = some w ∧ ∀ m, m ≠ n → Dict.get? (Dict.set attrs n w) m = Dict.get? attrs m :=
    fun w => ⟨Dict.get?_set_self _ _ _, fun m hm => Dict.get?_set_ne _ _ (Ne.symm hm)⟩
  have same : AttrFor C W.strftime n v v → a = attrs → (∃ v', Dict.get? a n = some v' ∧ AttrFor C W.strftime n v v') ∧
      ∀ m, m ≠ n → Dict.get? a m = Dict.get? attrs m := by
    rintro h1 rfl
    exact ⟨⟨v, hv, h1⟩, fun _ _ => rfl⟩
  have setTo : ∀ w, AttrFor C W.strftime n v w → a = Dict.set attrs n w → (∃ v', Dict.get? a n = some v' ∧ AttrFor C W.strftime n v v') ∧
      ∀ m, m ≠ n → Dict.get? a m = Dict.get? attrs m := by
    rintro w h1 rfl
    exact ⟨⟨w, (key w).1, h1⟩, (key w).2⟩
  by_cases hopt : lower n ∈ outOptions
  · have hln := hl hopt
    rw [hln] at hopt
    unfold OutFn.tagAttr at h
    rw [hln] at h
    simp only [outOptions, List.mem_cons, List.not_mem_nil, or_false] at hopt
    rcases hopt with rfl | rfl | rfl | rfl | rfl | rfl | rfl | rfl
    · simp only [if_pos, pure_ok, Except.ok.injEq] at h
      exact same (by simp [AttrFor]) h.symm
    · rw [if_neg (by decide), if_pos rfl] at h
      obtain ⟨s, hs, h2⟩ := (bind_ok_iff _ _ _).1 h
      simp only [pure_ok, Except.ok.injEq] at h2
      exact setTo _ (by simp only [AttrFor, if_pos]; exact ⟨s, (asText_ok _ _).1 hs, rfl⟩) h2.symm
    · rw [if_neg (by decide), if_neg (by decide), if_pos rfl] at h
      cases v with
      | str s =>
        refine setTo (.str (W.strftime s)) ?_ ?_
        · unfold AttrFor; rw [if_neg (by decide), if_pos rfl]; exact ⟨s, rfl, rfl⟩
        · simp only [pure_ok, Except.ok.injEq] at h; exact h.symm
      | _ => cases h
    · rw [if_neg (by decide), if_neg (by decide), if_neg (by decide), if_pos rfl] at h
      obtain ⟨f, hf, h2⟩ := (bind_ok_iff _ _ _).1 h
      obtain ⟨fs, hfs⟩ := (oneCall_ok _ _ _ _).1 hf
      simp only [pure_ok, Except.ok.injEq] at h2
      refine setTo _ ?_ h2.symm
      unfold AttrFor
      rw [if_neg (by decide), if_neg (by decide), if_neg (by decide), if_neg (by decide), if_neg (by decide), if_pos rfl]
      exact ⟨f, fs, hfs, rfl⟩
    · rw [if_neg (by decide), if_neg (by decide), if_neg (by decide), if_neg (by decide), if_pos rfl] at h
      obtain ⟨s, hs, h2⟩ := (bind_ok_iff _ _ _).1 h
      simp only [pure_ok, Except.ok.injEq] at h2
      refine setTo _ ?_ h2.symm
      unfold AttrFor
      rw [if_neg (by decide), if_neg (by decide), if_pos rfl]
      exact ⟨s, (asText_ok _ _).1 hs, rfl⟩
    · rw [if_neg (by decide), if_neg (by decide), if_neg (by decide), if_neg (by decide), if_neg (by decide), if_pos rfl] at h
      cases v with
      | str s =>
        simp only [pure_ok, Except.ok.injEq] at h
        refine setTo _ ?_ h.symm
        unfold AttrFor
        rw [if_neg (by decide), if_neg (by decide), if_neg (by decide), if_pos rfl]
        exact .inl ⟨s, rfl, rfl⟩
      | _ =>
        simp only [pure_ok, Except.ok.injEq] at h
        refine setTo _ ?_ h.symm
        unfold AttrFor
        rw [if_neg (by decide), if_neg (by decide), if_neg (by decide), if_pos rfl]
        exact .inr ⟨(by intro s e; cases e), rfl⟩
    · rw [if_neg (by decide), if_neg (by decide), if_neg (by decide), if_neg (by decide), if_neg (by decide), if_neg (by decide), if_pos rfl] at h
      obtain ⟨f, hf, h2⟩ := (bind_ok_iff _ _ _).1 h
      obtain ⟨fs, hfs⟩ := (oneCall_ok _ _ _ _).1 hf
      simp only [pure_ok, Except.ok.injEq] at h2
      refine setTo _ ?_ h2.symm
      unfold AttrFor
      rw [if_neg (by decide), if_neg (by decide), if_neg (by decide), if_neg (by decide), if_pos rfl]
      exact ⟨f, fs, hfs, rfl⟩
    · rw [if_neg (by decide), if_neg (by decide), if_neg (by decide), if_neg (by decide), if_neg (by decide), if_neg (by decide),
        if_neg (by decide), if_pos rfl] at h
      simp only [pure_ok, Except.ok.injEq] at h
      refine same ?_ h.symm
      unfold AttrFor
      rw [if_neg (by decide), if_neg (by decide), if_neg (by decide), if_neg (by decide), if_neg (by decide), if_neg (by decide)]
  · have l : ∀ m ∈ outOptions, lower n ≠ m := by rintro m hm rfl; exact hopt hm
    have q : ∀ m ∈ outOptions, n ≠ m := by
      rintro m hm rfl
      have hall : ∀ m ∈ outOptions, lower m = m := by decide
      exact l n hm (hall n hm)
    have hA : AttrFor C W.strftime n v v := by
      unfold AttrFor
      rw [if_neg (q _ (by decide)), if_neg (q _ (by decide)), if_neg (q _ (by decide)), if_neg (q _ (by decide)), if_neg (q _ (by decide)),
        if_neg (q _ (by decide))]
    unfold OutFn.tagAttr at h
    rw [if_neg (l _ (by decide)), if_neg (l _ (by decide)), if_neg (l _ (by decide)), if_neg (l _ (by decide)), if_neg (l _ (by decide)),
      if_neg (l _ (by decide)), if_neg (l _ (by decide)), if_neg (l _ (by decide))] at h
    split at h
    · simp only [pure_ok, Except.ok.injEq] at h
      exact same hA h.symm
    · simp only [pure_ok, Except.ok.injEq] at h
      exact setTo v hA h.symm

theorem tagAttrs_get (C : TplCtx) (W : OutFn.OutWorld) (l attrs a : Dict Str Val) (hw : Dict.WF l)
    (hlow : ∀ n ∈ Dict.keys l, lower n ∈ outOptions → lower n = n) (hsub : ∀ n v, Dict.get? l n = some v → Dict.get? attrs n = some v)
    (h : OutFn.tagAttrs C W l attrs = .ok a) :
    (∀ n, Dict.get? l n = none → Dict.get? a n = Dict.get? attrs n) ∧
      ∀ n v, Dict.get? l n = some v → ∃ v', Dict.get? a n = some v' ∧ AttrFor C W.strftime n v v' := by
  induction l generalizing attrs with
  | nil =>
    simp only [OutFn.tagAttrs, pure_ok, Except.ok.injEq] at h
    subst h
    exact ⟨fun _ _ => rfl, fun n v e => by cases e⟩
  | cons p l ih =>
    obtain ⟨k, v⟩ := p
    have hw' : k ∉ Dict.keys l ∧ Dict.WF l := by
      unfold Dict.WF Dict.keys at hw ⊢
      simpa using hw
    rw [OutFn.tagAttrs] at h
    obtain ⟨a1, h1, h2⟩ := (bind_ok_iff _ _ _).1 h
    obtain ⟨⟨v', hs1, hs2⟩, hs3⟩ := tagAttr_step C W attrs k v a1 (hlow k (by simp [Dict.keys]))
      (hsub k v (by rw [Dict.get?_cons, if_pos rfl])) h1
    have hk : Dict.get? l k = none := (Dict.get?_eq_none_iff l k).2 hw'.1
    obtain ⟨r1, r2⟩ := ih a1 hw'.2 (fun n hn => hlow n (by simp [Dict.keys] at hn ⊢; exact Or.inr hn)) (by
      intro n w hn
      have : n ≠ k := by rintro rfl; rw [hk] at hn; cases hn
      rw [hs3 n this]
      exact hsub n w (by rw [Dict.get?_cons, if_neg (Ne.symm this)]; exact hn)) h2
    constructor
    · intro n hn
      rw [Dict.get?_cons] at hn
      by_cases e : k = n
      · rw [if_pos e] at hn; cases hn
      · rw [if_neg e] at hn
        rw [r1 n hn, hs3 n (Ne.symm e)]
    · intro n w hn
      rw [Dict.get?_cons] at hn
      by_cases e : k = n
      · rw [if_pos e] at hn
        cases hn
        subst e
        exact ⟨v', by rw [r1 k hk, hs1], hs2⟩
      · rw [if_neg e] at hn
        exact r2 n w hn

/-- what formatters and returners get -/
theorem readTag_attrs (C : TplCtx) (W : OutFn.OutWorld) (x : Xml) (hx : Dict.WF x.attrib) (hw : ∀ d, TagLoad C x (.dict d) → Dict.WF d)
    (hlow : ∀ load, TagLoad C x load → ∀ n ∈ Dict.keys (outAll x load), lower n ∈ outOptions → lower n = n) (t : OutFn.OutTag)
    (h : OutFn.readTag C W x = .ok t) : ∃ load, TagLoad C x load ∧ loadOutput C x = .ok t.out ∧
      (∀ n, Dict.get? (outAll x load) n = none → Dict.get? t.attrs n = none) ∧
      (∀ n v, Dict.get? (outAll x load) n = some v → ∃ v', Dict.get? t.attrs n = some v' ∧ AttrFor C W.strftime n v v') ∧
      t.tagLoad = if load.truthy then load else (x.text.map Val.str).getD .none := by
  unfold OutFn.readTag at h
  obtain ⟨load, h1, h⟩ := (bind_ok_iff _ _ _).1 h
  have hl := (loadStruct_iff C x hx load).1 h1
  have hd : ∀ d, load = .dict d → Dict.WF d := fun d e => hw d (e ▸ hl)
  simp only [outAll_eq x hx load hd] at h
  obtain ⟨o, h2, h⟩ := (bind_ok_iff _ _ _).1 h
  obtain ⟨a, h3, h⟩ := (bind_ok_iff _ _ _).1 h
  simp only [pure_ok, Except.ok.injEq] at h
  subst h
  obtain ⟨r1, r2⟩ := tagAttrs_get C W _ _ a (outAll_WF x hx load hd) (hlow load hl) (fun _ _ e => e) h3
  exact ⟨load, hl, h2, fun n hn => by rw [r1 n hn, hn], r2, rfl⟩

end TTP
