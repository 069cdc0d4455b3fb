import Verif.Props.Machine
import Verif.Proofs.Dyn
/-!
# C94: group names with placeholders
-/

set_option synthInstance.maxSize 4000

namespace Props
open Py Spec TTP

/-! ### where the values of the records come from -/

theorem recsOf_values (dflt : Dict Key Val) (P : Val → Prop) (k : Key) (hd : ∀ v, Dict.get? dflt k = some v → P v) (cur : Option (Dict Key Val))
    (hc : ∀ r, cur = some r → Dict.WF r ∧ ∀ v, Dict.get? r k = some v → P v) (dead : Bool) (evs : List Ev)
    (he : ∀ ev ∈ evs, match ev with
      | .start d => Dict.WF d ∧ ∀ v, Dict.get? d k = some v → P v
      | .line d => Dict.WF d ∧ ∀ v, Dict.get? d k = some v → P v
      | .badStart => True) :
    ∀ r ∈ recsOf dflt cur dead evs, ∀ v, Dict.get? r k = some v → P v := by
  have hadd : ∀ r : Dict Key Val, (∀ v, Dict.get? r k = some v → P v) → ∀ v, Dict.get? (addDefaults r dflt) k = some v → P v := by
    intro r hr v hv
    rw [addDefaults_get] at hv
    cases h : Dict.get? r k with
    | some w => rw [h] at hv; simp at hv; exact hv ▸ hr w h
    | none => rw [h] at hv; simp at hv; exact hd v hv
  induction evs generalizing cur dead with
  | nil =>
    intro r hr
    cases cur with
    | none => simp [recsOf] at hr
    | some c => simp [recsOf] at hr; subst hr; exact hadd c (hc c rfl).2
  | cons ev evs ih =>
    have hes := fun e hm => he e (List.mem_cons_of_mem _ hm)
    have h0 := he ev (by simp)
    cases ev with
    | start d =>
      intro r hr
      simp only [recsOf, List.mem_append] at hr
      rcases hr with hr | hr
      · cases cur with
        | none => simp at hr
        | some c => simp at hr; subst hr; exact hadd c (hc c rfl).2
      · exact ih (some d) (by intro r e; cases e; exact h0) false hes r hr
    | badStart => simp only [recsOf]; exact ih cur hc true hes
    | line d =>
      cases dead with
      | true => simp only [recsOf]; exact ih cur hc true hes
      | false =>
        cases cur with
        | none => simp only [recsOf]; exact ih none (by intro r e; cases e) false hes
        | some c =>
          simp only [recsOf]
          refine ih (some (Dict.update d c)) ?_ false hes
          intro r e; cases e
          refine ⟨Dict.WF_update _ _ h0.1, ?_⟩
          intro v hv
          rw [Dict.get?_update _ _ (hc c rfl).1] at hv
          cases h : Dict.get? c k with
          | some w => rw [h] at hv; simp at hv; exact hv ▸ (hc c rfl).2 w h
          | none => rw [h] at hv; simp at hv; exact h0.2 v hv

/-- C94. A flat group whose path has placeholders: each record is saved at the path filled for it. A placeholder takes the value from the
record (which is taken out of it), else the value used last, else the template variable; a record for which a placeholder has no value
is not saved. -/
theorem C94_dynamic_path (toInt : Bool) (gf : GroupFns) (vars gvars : Dict Str Val) (g : GId) (items : List DItem) (hi : ∀ i ∈ items, i.OK)
    (hne : items ≠ []) (dflt : Dict Key Val) (hits : List Hit) (hof : ∀ h ∈ hits, OfGroup g (items.map DItem.source) dflt h)
    (hplain : ∀ n ∈ slotNames items, (∀ h ∈ hits, ∀ d, h.2 = some d → ∀ v, Dict.get? d (.s n) = some v → Plain v) ∧
      (∀ v, Dict.get? dflt (.s n) = some v → Plain v) ∧ ∀ v, Dict.get? vars n = some v → NoBackslash (pyStr v)) (R0 : Val) :
    ∃ recs, All2 (IsRecordOf dflt) (segments (hits.map evOf)) recs ∧ (∀ r ∈ recs, Dict.WF r) ∧
      (makeResults toInt gf [] vars gvars [hits.map ([·])] R0).map (·.results) = saveEach toInt vars items recs [] R0 := by
  have hwf : ∀ ev ∈ hits.map evOf, match ev with
      | .start d => Dict.WF d
      | .line d => Dict.WF d
      | .badStart => True := by
    intro ev hev
    obtain ⟨h, hh, rfl⟩ := List.mem_map.1 hev
    unfold evOf
    cases hd : h.2 with
    | none => trivial
    | some d =>
      have := (hof h hh).wf d hd
      cases h.1.action <;> simp [Dict.WF, Dict.keys] <;> exact this
  have hrw := recsOf_WF dflt none false (hits.map evOf) (by intro r e; cases e) hwf
  refine ⟨recsOf dflt none false (hits.map evOf), (recsOf_segments dflt _ hwf).1 false, hrw, ?_⟩
  unfold makeResults
  simp only [List.isEmpty_cons, Bool.false_eq_true, if_false, List.flatten_cons, List.flatten_nil, List.append_nil]
  simp only [saveVars, sorted, saveVarsAll, List.foldr_nil, pure_ok, ok_bind]
  refine dyn_sim toInt gf g items hi hne dflt hits hof ⟨R0, [], [], Record.empty, [], vars, gvars⟩ none false ⟨rfl, fun _ => rfl, by simp⟩ hrw ?_
  intro r hr n hn
  obtain ⟨p1, p2, p3⟩ := hplain n hn
  refine ⟨?_, by intro v hv; simp at hv, p3⟩
  refine recsOf_values dflt Plain (.s n) p2 none (by intro r e; cases e) false (hits.map evOf) ?_ r hr
  intro ev hev
  obtain ⟨h, hh, rfl⟩ := List.mem_map.1 hev
  unfold evOf
  cases hd : h.2 with
  | none => trivial
  | some d =>
    have := And.intro ((hof h hh).wf d hd) (p1 h hh d hd)
    cases h.1.action <;> simp only
    · exact this
    · exact ⟨by simp [Dict.WF, Dict.keys], by intro v hv; simp at hv⟩
    · exact this
    · exact this
    · exact this

/-! ### records under their keys -/

theorem eraseDups_snoc (ks : List Str) (k : Str) : (ks ++ [k]).eraseDups = if k ∈ ks then ks.eraseDups else ks.eraseDups ++ [k] := by
  rw [List.eraseDups_append]
  by_cases h : k ∈ ks
  · have : [k].removeAll ks = [] := by simp [List.removeAll, h]
    rw [this, if_pos h]; simp
  · have : [k].removeAll ks = [k] := by simp [List.removeAll, h]
    rw [this, if_neg h]; simp [List.eraseDups_cons]

theorem eraseDups_nodupS (l : List Str) : l.eraseDups.Nodup := by
  induction h : l.length using Nat.strongRecOn generalizing l with
  | _ n ih =>
    cases l with
    | nil => simp
    | cons x l =>
      rw [List.eraseDups_cons, List.nodup_cons]
      refine ⟨by rw [List.mem_eraseDups]; simp, ?_⟩
      refine ih _ ?_ _ rfl
      have := List.length_filter_le (fun b => !b == x) l
      simp at h; omega

theorem get?_mapKeys (ks : List Str) (f : Str → Val) (k : Str) :
    Dict.get? (ks.map (fun q => (Key.s q, f q))) (.s k) = if k ∈ ks then some (f k) else none := by
  induction ks with
  | nil => simp
  | cons q ks ih =>
    rw [List.map_cons, Dict.get?_cons, ih]
    by_cases e : q = k
    · subst e; simp
    · have : ¬ k = q := fun h => e h.symm
      simp [e, this]

theorem set_mapKeys (ks : List Str) (hn : ks.Nodup) (f g : Str → Val) (k : Str) (hk : k ∈ ks) (h : ∀ q ∈ ks, q ≠ k → g q = f q) :
    Dict.set (ks.map (fun q => (Key.s q, f q))) (.s k) (g k) = ks.map (fun q => (Key.s q, g q)) := by
  induction ks with
  | nil => cases hk
  | cons q ks ih =>
    rw [List.nodup_cons] at hn
    simp only [List.map_cons, Dict.set]
    by_cases e : q = k
    · subst e
      rw [if_pos rfl]
      congr 1
      apply List.map_congr_left
      intro x hx
      rw [h x (by simp [hx]) (by rintro rfl; exact hn.1 hx)]
    · rw [if_neg (by simpa using e), h q (by simp) e]
      congr 1
      exact ih hn.2 (by rcases List.mem_cons.1 hk with hk | hk; exact absurd hk.symm e; exact hk) (fun x hx => h x (by simp [hx]))

theorem ofKey_ne (l : List (Str × Dict Key Val)) (k : Str) : ofKey l k = [] ↔ k ∉ l.map (·.1) := by
  unfold ofKey
  rw [List.map_eq_nil_iff, List.filter_eq_nil_iff, List.mem_map]
  simp
  exact ⟨fun h x hm => h k x hm rfl, fun h a b hm e => h b (e ▸ hm)⟩

theorem keyed_get (l : List (Str × Dict Key Val)) (k : Str) :
    Dict.get? (keyed l) (.s k) = if ofKey l k = [] then none else some (oneOrMany (ofKey l k)) := by
  unfold keyed
  rw [get?_mapKeys]
  by_cases h : k ∈ l.map (·.1)
  · rw [if_pos (List.mem_eraseDups.2 h), if_neg (by rw [ofKey_ne]; exact fun g => g h)]
  · rw [if_neg (fun g => h (List.mem_eraseDups.1 g)), if_pos (by rw [ofKey_ne]; exact h)]

theorem keyed_snoc (l : List (Str × Dict Key Val)) (k : Str) (r : Dict Key Val) :
    keyed (l ++ [(k, r)]) = Dict.set (keyed l) (.s k) (oneOrMany (ofKey l k ++ [r])) := by
  have h1 : ofKey (l ++ [(k, r)]) k = ofKey l k ++ [r] := by simp [ofKey]
  have h2 : ∀ q, q ≠ k → ofKey (l ++ [(k, r)]) q = ofKey l q := by
    intro q hq
    have : ¬ k = q := fun h => hq (Eq.symm h)
    simp [ofKey, this]
  unfold keyed
  rw [List.map_append, List.map_cons, List.map_nil, eraseDups_snoc]
  by_cases h : k ∈ l.map (·.1)
  · rw [if_pos h, ← h1]
    exact (set_mapKeys _ (eraseDups_nodupS _) (fun k => oneOrMany (ofKey l k)) (fun q => oneOrMany (ofKey (l ++ [(k, r)]) q)) k
      (List.mem_eraseDups.2 h) (fun q _ hq => by simp only [h2 q hq])).symm
  · rw [if_neg h, Dict.set_of_not_mem, List.map_append, List.map_cons, List.map_nil, h1]
    · congr 1
      apply List.map_congr_left
      intro q hq
      rw [h2 q (by rintro rfl; exact h (List.mem_eraseDups.1 hq))]
    · intro hm
      unfold Dict.keys at hm
      rw [List.map_map] at hm
      obtain ⟨q, hq, e⟩ := List.mem_map.1 hm
      simp at e; subst e
      exact h (List.mem_eraseDups.1 hq)

theorem modAt_one {α : Type} (ti : Bool) (f : Val → PyM (Val × α)) (p : PItem) (h : p.name ≠ nullName) (d : Dict Key Val) :
    modAt ti f [p] (.dict d) = enterKey (keyOf ti p.name) (freshDict ti [p]) (modAt ti f []) d := by
  rw [modAt_cons ti f p [] h, onLast]

/-- saving under one more key -/
theorem save_keyed (ti : Bool) (k : Str) (hnn : k ≠ nullName) (hni : keyOf ti k = .s k)
    (l : List (Str × Dict Key Val)) (hl : ∀ q ∈ l, q.2 ≠ []) (r : Dict Key Val) (hr : r ≠ []) (hwf : Dict.WF r) :
    save ti false (.dict r) [⟨k, 0⟩] (.dict (keyed l)) = .ok (.dict (keyed (l ++ [(k, r)]))) := by
  rw [keyed_snoc]
  have hds : isDStar [⟨k, 0⟩] = false := rfl
  have hpop : popNull [⟨k, 0⟩] (.dict (keyed l)) = [⟨k, 0⟩] := rfl
  have hg := keyed_get l k
  unfold save
  rw [modAt_one ti _ ⟨k, 0⟩ hnn]
  simp only [hni, hds]
  cases ho : ofKey l k with
  | nil =>
    rw [ho] at hg
    simp only [if_true] at hg
    have e1 : freshDict ti [⟨k, 0⟩] = [(.s k, .dict [])] := by simp [freshDict, hni]
    rw [e1, enterKey_of_missing _ _ _ _ hg, Dict.set_of_not_mem _ _ _ ((Dict.get?_eq_none_iff _ _).1 hg)]
    simp [modAt, saveElem, updateArg, oneOrMany, Dict.update_nil_left _ hwf, pure_ok, ok_bind]
  | cons r0 rs =>
    rw [ho] at hg
    simp only [reduceCtorEq, if_false] at hg
    rw [enterKey_of_get _ _ _ _ _ hg]
    have hr0 : r0 ≠ [] := by
      have : r0 ∈ ofKey l k := by rw [ho]; simp
      obtain ⟨q, hq, rfl⟩ := List.mem_map.1 this
      exact hl q (List.mem_filter.1 hq).1
    cases rs with
    | nil =>
      have e2 : Val.dict r0 ≠ .dict [] := by simpa using hr0
      simp [modAt, saveElem, oneOrMany, hr0, pure_ok, ok_bind, hpop, valueToList, hnn, vtlName, Dict.get?_set_self, Dict.set_set]
    | cons r1 rs =>
      simp [modAt, saveElem, oneOrMany, Val.truthy, hr, pure_ok, ok_bind]

theorem get_single (k : Key) (w : Val) : Dict.get? [(k, w)] k = some w := by rw [Dict.get?_cons, if_pos rfl]

theorem modAt_nest {α : Type} (ti : Bool) (f : Val → PyM (Val × α)) (ns : List Str) (hnn : ∀ n ∈ ns, n ≠ nullName ∧ keyOf ti n = .s n)
    (q : PItem) (x : Val) : modAt ti f (ns.map (⟨·, 0⟩) ++ [q]) (nest ns x) = (modAt ti f [q] x >>= fun r => pure (nest ns r.1, r.2)) := by
  induction ns with
  | nil => cases h : modAt ti f [q] x <;> simp [h, nest]
  | cons n ns ih =>
    have hn := hnn n (by simp)
    rw [List.map_cons, List.cons_append, modAt_cons ti f _ _ hn.1, nest, onLast]
    simp only [hn.2]
    rw [enterKey_of_get _ _ _ _ _ (get_single _ _), ih (fun m hm => hnn m (by simp [hm]))]
    cases h : modAt ti f [q] x <;> simp [nest, Dict.set]

theorem valueToList_nest (r : Val) (ns : List Str) (hnn : ∀ n ∈ ns, n ≠ nullName) (q : PItem) (x : Val) :
    valueToList r (ns.map (⟨·, 0⟩) ++ [q]) (nest ns x) = (valueToList r [q] x >>= fun v => pure (nest ns v)) := by
  induction ns with
  | nil => cases h : valueToList r [q] x <;> simp [h, nest]
  | cons n ns ih =>
    have hn := hnn n (by simp)
    rw [List.map_cons, List.cons_append, valueToList_cons r _ _ hn, nest, vtlName]
    simp only [Dict.get?_cons, if_true, ih (fun m hm => hnn m (by simp [hm]))]
    cases h : valueToList r [q] x <;> simp [nest, Dict.set]

/-- saving below a path of names -/
theorem save_nest (ti : Bool) (data : Val) (ns : List Str) (hnn : ∀ n ∈ ns, n ≠ nullName ∧ keyOf ti n = .s n) (q : PItem)
    (hq : q.name ≠ nullName) (x x' : Val) (h : save ti false data [q] x = .ok x') :
    save ti false data (ns.map (⟨·, 0⟩) ++ [q]) (nest ns x) = .ok (nest ns x') := by
  have hd : isDStar (ns.map (⟨·, 0⟩) ++ [q]) = isDStar [q] := isDStar_append _ [q] (by simp)
  have hnn' : NN (ns.map (⟨·, 0⟩) ++ [q]) := by
    intro p hp
    rcases List.mem_append.1 hp with hp | hp
    · obtain ⟨n, hn, rfl⟩ := List.mem_map.1 hp; exact (hnn n hn).1
    · simp at hp; subst hp; exact hq
  simp only [save, bind_ok_iff] at h
  obtain ⟨⟨d1, b⟩, h1, h2⟩ := h
  simp only [save, hd, modAt_nest ti _ ns hnn, h1, ok_bind, pure_ok]
  rw [popNull_NN _ (by intro p hp; simp at hp; subst hp; exact hq)] at h2
  rw [popNull_NN _ hnn', valueToList_nest _ _ (fun n hn => (hnn n hn).1)]
  split at h2
  · rw [if_pos (by assumption), h2]; rfl
  · rw [if_neg (by assumption)]
    simp only [pure_ok, Except.ok.injEq] at h2 ⊢
    rw [h2]

theorem fresh_nest (ti : Bool) (ns : List Str) (hnn : ∀ n ∈ ns, keyOf ti n = .s n) (q : PItem) :
    .dict (freshDict ti (ns.map (⟨·, 0⟩) ++ [q])) = nest ns (.dict (freshDict ti [q])) := by
  induction ns with
  | nil => rfl
  | cons n ns ih =>
    rw [List.map_cons, List.cons_append, freshDict.eq_def, nest, ← ih (fun m hm => hnn m (by simp [hm]))]
    simp [hnn n (by simp)]

theorem modAt_fresh {α : Type} (ti : Bool) (f : Val → PyM (Val × α)) (p : PItem) (ps : List PItem) (h : p.name ≠ nullName) :
    modAt ti f (p :: ps) (.dict []) = modAt ti f (p :: ps) (.dict (freshDict ti (p :: ps))) := by
  rw [modAt_cons ti f p ps h, modAt_cons ti f p ps h, onLast, onLast]
  obtain ⟨w, e, -, -⟩ := freshDict_cons ti p ps
  rw [e, enterKey_of_missing _ _ _ _ (by simp), enterKey_of_get _ _ _ _ _ (get_single _ _)]
  simp [Dict.set]

/-- the first save builds the path -/
theorem save_first (ti : Bool) (data : Val) (ns : List Str) (hnn : ∀ n ∈ ns, n ≠ nullName ∧ keyOf ti n = .s n) (q : PItem)
    (hq : q.name ≠ nullName) (x' : Val) (h : save ti false data [q] (.dict []) = .ok x') :
    save ti false data (ns.map (⟨·, 0⟩) ++ [q]) (.dict []) = .ok (nest ns x') := by
  cases ns with
  | nil => exact h
  | cons n ns =>
    rw [← save_nest ti data (n :: ns) hnn q hq _ _ h]
    unfold save
    have hm : ∀ f : Val → PyM (Val × Bool), modAt ti f ((n :: ns).map (⟨·, 0⟩) ++ [q]) (.dict []) =
        modAt ti f ((n :: ns).map (⟨·, 0⟩) ++ [q]) (nest (n :: ns) (.dict [])) := by
      intro f
      rw [modAt_nest ti f _ hnn, modAt_fresh ti f q [] hq, ← modAt_nest ti f _ hnn, ← fresh_nest ti _ (fun m hm => (hnn m hm).2),
        List.map_cons, List.cons_append, modAt_fresh ti f _ _ (hnn n (by simp)).1]
    rw [hm]
    cases h1 : modAt ti (saveElem false (isDStar ((n :: ns).map (⟨·, 0⟩) ++ [q])) data) ((n :: ns).map (⟨·, 0⟩) ++ [q]) (nest (n :: ns) (.dict [])) with
    | error e => rfl
    | ok r => cases hns : ns <;> simp [popNull, nest, (hnn n (by simp)).1]

theorem fill_static (vars : Dict Str Val) (ns : List Str) (is : List DItem) (used : Dict Str Val) (r : Dict Key Val) :
    fillPath vars (ns.map (⟨·, none, 0⟩) ++ is) used r = ((fillPath vars is used r).1, (fillPath vars is used r).2.1,
      (fillPath vars is used r).2.2.map (ns.map (⟨·, 0⟩) ++ ·)) := by
  induction ns with
  | nil => simp
  | cons n ns ih =>
    rw [List.map_cons, List.cons_append, fillPath.eq_def]
    simp only [ih]
    cases (fillPath vars is used r).2.2 <;> simp

/-- the records saved one after the other under their keys -/
theorem saveEach_keyed (ti : Bool) (vars : Dict Str Val) (ns : List Str) (hnn : ∀ n ∈ ns, n ≠ nullName ∧ keyOf ti n = .s n)
    (pre : Str) (s : Slot) (key : Dict Key Val → Str) (recs : List (Dict Key Val))
    (hr : ∀ r ∈ recs, Dict.WF r ∧ Dict.get? r (.s s.name) = some (.str (key r)) ∧ Dict.erase r (.s s.name) ≠ [] ∧
      pre ++ key r ++ s.post ≠ nullName ∧ keyOf ti (pre ++ key r ++ s.post) = .s (pre ++ key r ++ s.post))
    (l : List (Str × Dict Key Val)) (hl : ∀ q ∈ l, q.2 ≠ []) (used : Dict Str Val) (R : Val)
    (hR : R = nest ns (.dict (keyed l)) ∨ l = [] ∧ R = .dict [] ∧ recs ≠ []) :
    saveEach ti vars (ns.map (⟨·, none, 0⟩) ++ [⟨pre, some s, 0⟩]) recs used R =
      .ok (nest ns (.dict (keyed (l ++ recs.map (fun r => (pre ++ key r ++ s.post, Dict.erase r (.s s.name))))))) := by
  induction recs generalizing l used R with
  | nil =>
    rcases hR with rfl | ⟨_, _, h⟩
    · simp [saveEach]
    · exact absurd rfl h
  | cons r rs ih =>
    obtain ⟨hw, hg, he, hn, hk⟩ := hr r (by simp)
    have hf : fillPath vars [⟨pre, some s, 0⟩] used r = (Dict.set used s.name (.str (key r)), Dict.erase r (.s s.name),
        some [⟨pre ++ key r ++ s.post, 0⟩]) := by
      simp [fillPath, slotValue, remember, hg, pyStr]
    rw [saveEach.eq_def]
    simp only [fill_static, hf, Option.map_some]
    have h1 := save_keyed ti _ hn hk l hl _ he (Dict.WF_erase _ _ hw)
    have h2 : save ti false (.dict (Dict.erase r (.s s.name))) (ns.map (⟨·, 0⟩) ++ [⟨pre ++ key r ++ s.post, 0⟩]) R =
        .ok (nest ns (.dict (keyed (l ++ [(pre ++ key r ++ s.post, Dict.erase r (.s s.name))])))) := by
      rcases hR with rfl | ⟨rfl, rfl, _⟩
      · exact save_nest ti _ ns hnn _ hn _ _ h1
      · exact save_first ti _ ns hnn _ hn _ h1
    rw [h2]
    simp only [ok_bind]
    rw [ih (fun r hr' => hr r (by simp [hr'])) _ ?_ _ _ (Or.inl rfl)]
    · simp
    · intro q hq
      rcases List.mem_append.1 hq with hq | hq
      · exact hl q hq
      · simp at hq; subst hq; exact he

/-- C94. With a path of names and one placeholder at its end, e.g. `interfaces.{{ interface }}`, where every record has a value for the
placeholder and something more: the results have, below the names, a dictionary whose keys are the filled items, in the order in which
they are met, each with its record, or with the list of its records if there are several. -/
theorem C94_keyed (toInt : Bool) (gf : GroupFns) (vars gvars : Dict Str Val) (g : GId) (ns : List Str) (pre : Str) (s : Slot)
    (hns : ∀ n ∈ ns, '{' ∉ n ∧ n.getLast? ≠ some '*' ∧ n ≠ c!"_" ∧ (toInt = true → isdigitS n = false)) (hpre : '{' ∉ pre) (hs : s.OK)
    (dflt : Dict Key Val) (hits : List Hit)
    (hof : ∀ h ∈ hits, OfGroup g (ns ++ [(DItem.mk pre (some s) 0).source]) dflt h)
    (hplain : (∀ h ∈ hits, ∀ d, h.2 = some d → ∀ v, Dict.get? d (.s s.name) = some v → Plain v) ∧
      (∀ v, Dict.get? dflt (.s s.name) = some v → Plain v) ∧ ∀ v, Dict.get? vars s.name = some v → NoBackslash (pyStr v)) :
    ∃ recs, All2 (IsRecordOf dflt) (segments (hits.map evOf)) recs ∧
      ∀ key : Dict Key Val → Str, recs ≠ [] →
      (∀ r ∈ recs, Dict.get? r (.s s.name) = some (.str (key r)) ∧ Dict.erase r (.s s.name) ≠ [] ∧
        pre ++ key r ++ s.post ≠ c!"_" ∧ (toInt = true → isdigitS (pre ++ key r ++ s.post) = false)) →
      (makeResults toInt gf [] vars gvars [hits.map ([·])] (.dict [])).map (·.results) =
        .ok (nest ns (.dict (keyed (recs.map (fun r => (pre ++ key r ++ s.post, Dict.erase r (.s s.name))))))) := by
  have hitems : (ns.map (fun n => DItem.mk n none 0) ++ [DItem.mk pre (some s) 0]).map DItem.source = ns ++ [(DItem.mk pre (some s) 0).source] := by
    rw [List.map_append, List.map_map]
    congr 1
    conv => rhs; rw [← List.map_id ns]
    apply List.map_congr_left
    intro n _; simp [DItem.source]
  have hko : ∀ n : Str, (toInt = true → isdigitS n = false) → keyOf toInt n = .s n := by
    intro n h; unfold keyOf; cases toInt <;> simp_all
  obtain ⟨recs, h1, h2, h3⟩ := C94_dynamic_path toInt gf vars gvars g (ns.map (fun n => DItem.mk n none 0) ++ [DItem.mk pre (some s) 0]) (by
      intro i hi
      rcases List.mem_append.1 hi with hi | hi
      · obtain ⟨n, hn, rfl⟩ := List.mem_map.1 hi
        exact ⟨(hns n hn).1, (hns n hn).2.1⟩
      · simp at hi; subst hi; exact ⟨hpre, hs⟩) (by simp) dflt hits (by rw [hitems]; exact hof) (by
      intro n hn
      have : n = s.name := by
        unfold slotNames at hn
        rw [List.filterMap_append, List.mem_append] at hn
        rcases hn with hn | hn
        · simp at hn
        · simpa using hn
      subst this; exact hplain) (.dict [])
  refine ⟨recs, h1, fun key hne hr => ?_⟩
  rw [h3, saveEach_keyed toInt vars ns (fun n hn => ⟨(hns n hn).2.2.1, hko n (hns n hn).2.2.2⟩) pre s key recs
    (fun r hm => ⟨h2 r hm, (hr r hm).1, (hr r hm).2.1, (hr r hm).2.2.1, hko _ (hr r hm).2.2.2⟩) [] (by simp) [] _ (Or.inr ⟨rfl, rfl, hne⟩)]
  rfl

/-! ### a case, and what is not in the claim -/

namespace Ex
/-- group `interfaces.{{ interface }}` -/
def gD : GId := (c!"interfaces.{{ interface }}", 0)
/-- its placeholder -/
def slotI : Slot := ⟨c!" ", c!"interface", c!" ", []⟩
/-- start line -/
def reD : RE := ⟨gD, none, [c!"interfaces", c!"{{ interface }}"], [], [], .start, false, []⟩
/-- another line -/
def reDl : RE := { reD with action := .add }
/-- three records, two of them for the same interface -/
def hitsD : List Hit := [(reD, some (kv c!"interface" c!"Lo0")), (reDl, some (kv c!"descr" c!"a")),
  (reD, some (kv c!"interface" c!"Lo1")), (reDl, some (kv c!"descr" c!"b")),
  (reD, some (kv c!"interface" c!"Lo0")), (reDl, some (kv c!"descr" c!"c"))]

theorem hitsD_of : ∀ h ∈ hitsD, OfGroup gD ([c!"interfaces"] ++ [(DItem.mk [] (some slotI) 0).source]) [] h := by
  intro h hh
  have wf : ∀ k v, Dict.WF (kv k v) := fun k v => by simp [kv, Dict.WF, Dict.keys]
  simp only [hitsD, List.mem_cons, List.mem_nil_iff, or_false] at hh
  rcases hh with rfl | rfl | rfl | rfl | rfl | rfl
  · exact ⟨rfl, rfl, rfl, rfl, rfl, Or.inl rfl, by intro d e; cases e; exact wf _ _⟩
  · exact ⟨rfl, rfl, rfl, rfl, rfl, Or.inr ⟨rfl, by decide⟩, by intro d e; cases e; exact wf _ _⟩
  · exact ⟨rfl, rfl, rfl, rfl, rfl, Or.inl rfl, by intro d e; cases e; exact wf _ _⟩
  · exact ⟨rfl, rfl, rfl, rfl, rfl, Or.inr ⟨rfl, by decide⟩, by intro d e; cases e; exact wf _ _⟩
  · exact ⟨rfl, rfl, rfl, rfl, rfl, Or.inl rfl, by intro d e; cases e; exact wf _ _⟩
  · exact ⟨rfl, rfl, rfl, rfl, rfl, Or.inr ⟨rfl, by decide⟩, by intro d e; cases e; exact wf _ _⟩

theorem slotI_ok : slotI.OK := by
  refine ⟨by decide, by decide, by decide, by decide, by decide, by decide, by decide⟩

theorem hitsD_plain : (∀ h ∈ hitsD, ∀ d, h.2 = some d → ∀ v, Dict.get? d (.s slotI.name) = some v → Plain v) ∧
    (∀ v, Dict.get? ([] : Dict Key Val) (.s slotI.name) = some v → Plain v) ∧
    ∀ v, Dict.get? ([] : Dict Str Val) slotI.name = some v → NoBackslash (pyStr v) := by
  refine ⟨?_, (by intro v hv; cases hv), (by intro v hv; cases hv)⟩
  intro h hh d hd v hv
  simp only [hitsD, List.mem_cons, List.mem_nil_iff, or_false] at hh
  rcases hh with rfl | rfl | rfl | rfl | rfl | rfl <;> cases hd <;> cases hv
  · exact ⟨_, rfl, by unfold NoBackslash; decide⟩
  · exact ⟨_, rfl, by unfold NoBackslash; decide⟩
  · exact ⟨_, rfl, by unfold NoBackslash; decide⟩
end Ex

example := C94_keyed false Ex.gf0 [] [] Ex.gD [c!"interfaces"] [] Ex.slotI (by decide) (by decide) Ex.slotI_ok [] Ex.hitsD Ex.hitsD_of
  Ex.hitsD_plain

/-- what the matches of the example give: `Lo0` has the list of its two records, `Lo1` has its record -/
example : (makeResults false Ex.gf0 [] [] [] [Ex.hitsD.map ([·])] (.dict [])).map (·.results) =
    .ok (nest [c!"interfaces"] (.dict (keyed [(c!"Lo0", Ex.kv c!"descr" c!"a"), (c!"Lo1", Ex.kv c!"descr" c!"b"),
      (c!"Lo0", Ex.kv c!"descr" c!"c")]))) := by decide +kernel

/-- Two placeholders without blanks in one item are taken for one, and the record is lost. -/
theorem C94_two_placeholders_lost :
    (makeResults false Ex.gf0 [] [] [] [[[({ Ex.reD with path := [c!"{{a}}-{{b}}"] }, some [(.s c!"a", .str c!"1"), (.s c!"b", .str c!"2"), (.s c!"c", .str c!"3")])]]] (.dict [])).map
      (·.results) = .ok (.dict []) := by decide +kernel

/-- with blanks the same item is filled -/
theorem C94_two_placeholders_blanks :
    (makeResults false Ex.gf0 [] [] [] [[[({ Ex.reD with path := [c!"{{ a }}-{{ b }}"] }, some [(.s c!"a", .str c!"1"), (.s c!"b", .str c!"2"), (.s c!"c", .str c!"3")])]]] (.dict [])).map
      (·.results) = .ok (.dict [(.s c!"1-2", .dict [(.s c!"c", .str c!"3")])]) := by decide +kernel

/-- A value with a backslash and a `t` gets a tabulator in the key. -/
theorem C94_backslash_changed :
    (makeResults false Ex.gf0 [] [] [] [[[({ Ex.reD with path := [c!"{{ a }}"] }, some [(.s c!"a", .str c!"x\\ty"), (.s c!"c", .str c!"3")])]]] (.dict [])).map
      (·.results) = .ok (.dict [(.s c!"x\ty", .dict [(.s c!"c", .str c!"3")])]) := by decide +kernel

/-- a number that was used for a placeholder is not usable for the next record that lacks the value: the parse fails -/
theorem C94_number_reused_fails :
    (makeResults false Ex.gf0 [] [] [] [[[({ Ex.reD with path := [c!"{{ a }}"] }, some [(.s c!"a", .int 1), (.s c!"c", .str c!"3")])],
      [({ Ex.reD with path := [c!"{{ a }}"] }, some [(.s c!"c", .str c!"4")])]]] (.dict [])).map (·.results) = .error .typeError := by decide +kernel

end Props
