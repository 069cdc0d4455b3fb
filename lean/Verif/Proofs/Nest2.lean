import Verif.Proofs.Nest
/-!
# Lemmas: records of nested groups
-/

namespace TTP
open Py Spec

/-! ### saving -/

theorem saveElem_put (ds : Bool) (r : Dict Key Val) (xs : List Val) :
    saveElem false ds (.dict r) (.list xs) = .ok (.list (putRec r xs), false) := by
  cases r with
  | nil => simp [saveElem, Val.truthy, putRec, pure_ok]
  | cons a r => simp [saveElem, Val.truthy, putRec, pure_ok]

theorem save_put (ti : Bool) (r : Dict Key Val) (p : PItem) (ps : List PItem) (hnn : NN (p :: ps)) (hl : Lists (p :: ps))
    (d : Dict Key Val) (hok : OkAt (pkeys ti (p :: ps)) d) :
    save ti false (.dict r) (p :: ps) (.dict d) = .ok (.dict (inLast (pkeys ti (p :: ps)) (putRec r) d)) := by
  unfold save
  rw [modAt_lists ti _ p ps hnn hl d hok (putRec r) false (saveElem_put _ r _)]
  simp [pure_ok, ok_bind]

theorem listAt_last (ks : List Key) (d : Dict Key Val) (hok : OkAt ks d) (x : Val) (hx : (listAt ks d).getLast? = some x) :
    ∃ e, x = .dict e ∧ Flat e := by
  induction ks generalizing d with
  | nil => simp [listAt] at hx
  | cons k ks ih =>
    cases ks with
    | nil =>
      simp only [listAt] at hx
      rcases okAt_recs hok with ⟨_, h⟩ | ⟨_, h⟩
      · rw [h] at hx; simp at hx
      · obtain ⟨e, h1, h2, _⟩ := h x hx; exact ⟨e, h1, h2⟩
    | cons k' ks => exact ih _ (okAt_last hok).1 hx

theorem inLast_id (ks : List Key) (d : Dict Key Val) (hok : OkAt ks d) (hne : listAt ks d ≠ []) : inLast ks (fun xs => xs) d = d := by
  induction ks generalizing d with
  | nil => rfl
  | cons k ks ih =>
    cases ks with
    | nil =>
      simp only [listAt] at hne
      rcases okAt_recs hok with ⟨_, h⟩ | ⟨h, _⟩
      · exact absurd h hne
      · simp only [inLast]; exact Dict.set_get?_self _ _ _ h
    | cons k' ks =>
      have hl := okAt_last hok
      have h1 := ih _ hl.1 hne
      simp only [inLast]
      rw [h1]
      rcases okAt_recs hok with ⟨_, h⟩ | ⟨h, h2⟩
      · exfalso
        apply hne
        simp only [listAt, h]
        have : ∀ ks : List Key, listAt ks [] = [] := by
          intro ks
          induction ks with
          | nil => rfl
          | cons k ks ih =>
            cases ks with
            | nil => rfl
            | cons k' ks => exact ih
        exact this _
      · cases hg : (recsAt d k).getLast? with
        | none =>
          exfalso
          apply hne
          have hnil : recsAt d k = [] := by simpa using hg
          simp only [listAt, hnil]
          have : ∀ ks : List Key, listAt ks [] = [] := by
            intro ks
            induction ks with
            | nil => rfl
            | cons k ks ih =>
              cases ks with
              | nil => rfl
              | cons k' ks => exact ih
          exact this _
        | some x =>
          obtain ⟨e, rfl, _⟩ := h2 x hg
          have hs := getLast?_eq_some_split hg
          have : lastRec (recsAt d k) = e := by simp [lastRec, hg]
          rw [this, ← hs]
          exact Dict.set_get?_self _ _ _ h

theorem reconstruct_lists (ti : Bool) (r : Dict Key Val) (p : PItem) (ps : List PItem) (hnn : NN (p :: ps)) (hl : Lists (p :: ps))
    (d : Dict Key Val) (hok : OkAt (pkeys ti (p :: ps)) d) (hne : listAt (pkeys ti (p :: ps)) d ≠ []) :
    reconstruct ti (.dict r) (p :: ps) (.dict d) =
      .ok (.dict d, .dict (Dict.update (lastRec (listAt (pkeys ti (p :: ps)) d)) r)) := by
  unfold reconstruct
  rw [modAt_lists ti (fun v => pure (v, v)) p ps hnn hl d hok (fun xs => xs) _ rfl, inLast_id _ _ hok hne]
  obtain ⟨x, hx⟩ : ∃ x, (listAt (pkeys ti (p :: ps)) d).getLast? = some x := by
    cases h : (listAt (pkeys ti (p :: ps)) d).getLast? with
    | none => exact absurd (by simpa using h) hne
    | some x => exact ⟨x, rfl⟩
  obtain ⟨e, rfl, _⟩ := listAt_last _ _ hok x hx
  simp [ok_bind, hx, lastRec, updateArg, pure_ok]

theorem save_amend (ti : Bool) (r : Dict Key Val) (hr : ∀ kv ∈ r, NotDict kv.2) (p : PItem) (ps : List PItem) (hnn : NN (p :: ps))
    (hl : Lists (p :: ps)) (d : Dict Key Val) (hok : OkAt (pkeys ti (p :: ps)) d) (hne : listAt (pkeys ti (p :: ps)) d ≠ []) :
    save ti true (.dict (Dict.update (lastRec (listAt (pkeys ti (p :: ps)) d)) r)) (p :: ps) (.dict d) =
      .ok (.dict (inLast (pkeys ti (p :: ps)) (amendRec r) d)) := by
  unfold save
  have hel : saveElem true (isDStar (p :: ps)) (.dict (Dict.update (lastRec (listAt (pkeys ti (p :: ps)) d)) r))
      (.list (listAt (pkeys ti (p :: ps)) d)) = .ok (.list (amendRec r (listAt (pkeys ti (p :: ps)) d)), false) := by
    generalize hxs : listAt (pkeys ti (p :: ps)) d = xs at hne
    cases hg : xs.getLast? with
    | none => exact absurd (by simpa using hg) hne
    | some x =>
      obtain ⟨e, rfl, hflat⟩ := listAt_last _ _ hok x (by rw [hxs]; exact hg)
      have hle : lastRec xs = e := by simp [lastRec, hg]
      have hs := getLast?_eq_some_split hg
      have hm : mergeRec e (Dict.update e r) = .ok (Dict.update e r) := by
        rw [mergeRec_flat, update_update e r hflat.1]
        intro kv hkv
        rcases mem_update _ _ _ hkv with h | h
        · exact hflat.2 kv h
        · exact hr kv h
      rw [hle]
      unfold amendRec
      rw [hle]
      cases hu : Dict.update e r with
      | cons a u =>
        rw [hu] at hm
        simp only [saveElem, Val.truthy, List.isEmpty_cons, Bool.not_false, if_true, mergeLast, hg, hm, ok_bind, pure_ok]
      | nil =>
        have he : e = [] := by
          obtain ⟨e', s, h1, h2⟩ := update_form e r
          rw [hu] at h1
          have : e' = [] := by cases e' with
            | nil => rfl
            | cons => simp at h1
          rw [this] at h2
          cases e with
          | nil => rfl
          | cons => simp [Dict.keys] at h2
        subst he
        rw [← hs]
        simp [saveElem, Val.truthy, pure_ok]
  rw [modAt_lists ti _ p ps hnn hl d hok (amendRec r) false hel]
  simp [pure_ok, ok_bind]

/-! ### the trees stay trees -/

theorem flat_inLast (ks : List Key) (φ : List Val → List Val) (d : Dict Key Val) (h : Flat d) : Flat (inLast ks φ d) := by
  cases ks with
  | nil => exact h
  | cons k ks =>
    cases ks with
    | nil => exact flat_set _ _ _ h
    | cons k' ks => exact flat_set _ _ _ h

/-- the last record of the list is fine for the rest of the keys -/
def LastOk (us : List Key) (xs : List Val) : Prop := ∀ x, xs.getLast? = some x → ∃ e, x = .dict e ∧ Flat e ∧ OkAt us e

theorem okAt_inLast (ks ks' : List Key) (φ : List Val → List Val) (d : Dict Key Val) (h : OkAt ks d) (h' : OkAt ks' d)
    (hφ : ∀ us xs, us <:+ ks' → LastOk us xs → LastOk us (φ xs)) : OkAt ks' (inLast ks φ d) := by
  induction ks generalizing ks' d with
  | nil => exact h'
  | cons k ks ih =>
    cases ks' with
    | nil => trivial
    | cons q qs =>
      intro v hv
      cases ks with
      | nil =>
        simp only [inLast] at hv
        by_cases hq : k = q
        · subst hq
          rw [Dict.get?_set_self] at hv
          simp only [Option.some.injEq] at hv
          refine ⟨_, hv.symm, ?_⟩
          apply hφ qs _ (List.suffix_cons _ _)
          rcases okAt_recs h' with ⟨_, h2⟩ | ⟨_, h2⟩
          · rw [h2]; intro x hx; simp at hx
          · exact h2
        · rw [Dict.get?_set_ne _ _ hq] at hv
          exact h' v hv
      | cons k' ks =>
        simp only [inLast] at hv
        by_cases hq : k = q
        · subst hq
          rw [Dict.get?_set_self] at hv
          simp only [Option.some.injEq] at hv
          refine ⟨_, hv.symm, ?_⟩
          intro x hx
          simp only [List.getLast?_append, List.getLast?_singleton, Option.some_or, Option.some.injEq] at hx
          refine ⟨_, hx.symm, flat_inLast _ _ _ (okAt_last h).2, ?_⟩
          exact ih qs _ (okAt_last h).1 (okAt_last h').1 (fun us xs hu => hφ us xs (hu.trans (List.suffix_cons _ _)))
        · rw [Dict.get?_set_ne _ _ hq] at hv
          exact h' v hv

theorem lastOk_put (us : List Key) (r : Dict Key Val) (hr : Flat r) (hn : ∀ k ∈ us, k ∉ Dict.keys r) (xs : List Val)
    (h : LastOk us xs) : LastOk us (putRec r xs) := by
  unfold putRec
  split
  · exact h
  · intro x hx
    simp only [List.getLast?_append, List.getLast?_singleton, Option.some_or, Option.some.injEq] at hx
    exact ⟨r, hx.symm, hr, okAt_of_missing us r (fun k hk => (Dict.get?_eq_none_iff r k).2 (hn k hk))⟩

theorem lastOk_amend (us : List Key) (r : Dict Key Val) (hr : Flat r) (hn : ∀ k ∈ us, k ∉ Dict.keys r) (xs : List Val)
    (h : LastOk us xs) : LastOk us (amendRec r xs) := by
  intro x hx
  simp only [amendRec, List.getLast?_append, List.getLast?_singleton, Option.some_or, Option.some.injEq] at hx
  have hl : Flat (lastRec xs) ∧ OkAt us (lastRec xs) := by
    unfold lastRec
    cases hg : xs.getLast? with
    | none => exact ⟨flat_nil, okAt_nil _⟩
    | some y =>
      obtain ⟨e, rfl, h1, h2⟩ := h y hg
      exact ⟨h1, h2⟩
  refine ⟨_, hx.symm, flat_update _ _ hl.1 hr.2, ?_⟩
  cases us with
  | nil => trivial
  | cons k us =>
    intro v hv
    rw [Dict.get?_update _ _ hr.1, (Dict.get?_eq_none_iff r k).2 (hn k (by simp))] at hv
    exact hl.2 v (by simpa using hv)

theorem listAt_inLast (ks us : List Key) (hk : ks ≠ []) (hu : us ≠ []) (φ : List Val → List Val) (d : Dict Key Val) :
    listAt ks (inLast (ks ++ us) φ d) ≠ [] := by
  induction ks generalizing d with
  | nil => exact absurd rfl hk
  | cons k ks ih =>
    cases ks with
    | nil =>
      obtain ⟨u, us, rfl⟩ := List.exists_cons_of_ne_nil hu
      simp [listAt, inLast, recsAt, Dict.get?_set_self]
    | cons k' ks =>
      have h := ih (by simp) (lastRec (recsAt d k))
      simp only [List.cons_append, inLast, listAt, recsAt, Dict.get?_set_self] at h ⊢
      have : ∀ (xs : List Val) (e : Dict Key Val), lastRec (xs ++ [.dict e]) = e := by intro xs e; simp [lastRec]
      rw [this]
      exact h

end TTP
