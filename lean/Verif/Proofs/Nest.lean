import Verif.Spec.Nest
import Verif.Proofs.Machine
import Verif.Proofs.Save3
/-!
# Lemmas: saving into trees of lists
-/

namespace TTP
open Py Spec

/-! ### dictionaries -/

theorem update_same_keys (p e e' : Dict Key Val) (hk : Dict.keys e = Dict.keys e') (hwf : Dict.WF (p ++ e)) :
    Dict.update (p ++ e) e' = p ++ e' := by
  induction e generalizing p e' with
  | nil =>
    cases e' with
    | nil => simp
    | cons a e' => simp [Dict.keys] at hk
  | cons a e ih =>
    cases e' with
    | nil => simp [Dict.keys] at hk
    | cons b e' =>
      obtain ⟨k, v⟩ := a
      obtain ⟨k', w⟩ := b
      simp only [Dict.keys, List.map_cons, List.cons.injEq] at hk
      obtain ⟨rfl, hk⟩ := hk
      rw [Dict.update_cons]
      have hnot : k ∉ Dict.keys p := by
        intro hm
        unfold Dict.WF Dict.keys at hwf
        simp only [List.map_append, List.map_cons] at hwf
        exact (List.nodup_append.1 hwf).2.2 k hm k (by simp) rfl
      have hset : ∀ q : Dict Key Val, k ∉ Dict.keys q → Dict.set (q ++ (k, v) :: e) k w = q ++ (k, w) :: e := by
        intro q
        induction q with
        | nil => intro _; simp [Dict.set]
        | cons x q ihq =>
          intro hq
          obtain ⟨kx, vx⟩ := x
          simp only [Dict.keys, List.map_cons, List.mem_cons, not_or] at hq
          simp only [List.cons_append, Dict.set]
          rw [if_neg (fun h => hq.1 h.symm), ihq hq.2]
      rw [hset p hnot]
      have := ih (p ++ [(k, w)]) e' hk (by
        unfold Dict.WF Dict.keys at hwf ⊢
        simpa using hwf)
      simpa using this

theorem update_form (e r : Dict Key Val) : ∃ e' s, Dict.update e r = e' ++ s ∧ Dict.keys e' = Dict.keys e := by
  induction r generalizing e with
  | nil => exact ⟨e, [], by simp, rfl⟩
  | cons a r ih =>
    obtain ⟨k, v⟩ := a
    rw [Dict.update_cons]
    obtain ⟨e1, s1, h1, h2⟩ := ih (Dict.set e k v)
    by_cases hk : k ∈ Dict.keys e
    · rw [Dict.keys_set_of_mem e k v hk] at h2
      exact ⟨e1, s1, h1, h2⟩
    · rw [Dict.keys_set_of_not_mem e k v hk] at h2
      have hlen : e1.length = e.length + 1 := by
        have := congrArg List.length h2
        simpa [Dict.keys] using this
      refine ⟨e1.take e.length, e1.drop e.length ++ s1, ?_, ?_⟩
      · rw [h1, ← List.append_assoc, List.take_append_drop]
      · have h3 := congrArg (List.take e.length) h2
        unfold Dict.keys at h3 ⊢
        rw [← List.map_take] at h3
        rw [h3, List.take_append_of_le_length (by simp)]
        rw [List.take_of_length_le (by simp)]

/-- updating twice is updating once -/
theorem update_update (e r : Dict Key Val) (hwf : Dict.WF e) : Dict.update e (Dict.update e r) = Dict.update e r := by
  obtain ⟨e', s, h1, h2⟩ := update_form e r
  have hw : Dict.WF (e' ++ s) := by rw [← h1]; exact Dict.WF_update e r hwf
  rw [h1, Dict.update_append]
  have := update_same_keys [] e e' h2.symm (by simpa using hwf)
  simp only [List.nil_append] at this
  rw [this]
  unfold Dict.WF Dict.keys at hw
  rw [List.map_append, List.nodup_append] at hw
  exact Dict.update_of_disjoint e' s hw.2.1 (fun k hk hk' => hw.2.2 k hk' k hk rfl)

theorem mem_set (d : Dict Key Val) (k : Key) (v : Val) (kv : Key × Val) (h : kv ∈ Dict.set d k v) : kv ∈ d ∨ kv = (k, v) := by
  induction d with
  | nil => simp [Dict.set] at h; exact Or.inr h
  | cons a d ih =>
    obtain ⟨k', w⟩ := a
    simp only [Dict.set] at h
    split at h
    · rename_i he
      rcases List.mem_cons.1 h with h | h
      · right; rw [h]; simp [he]
      · left; exact List.mem_cons_of_mem _ h
    · rcases List.mem_cons.1 h with h | h
      · left; rw [h]; simp
      · rcases ih h with h | h
        · left; exact List.mem_cons_of_mem _ h
        · right; exact h

theorem mem_update (d e : Dict Key Val) (kv : Key × Val) (h : kv ∈ Dict.update d e) : kv ∈ d ∨ kv ∈ e := by
  induction e generalizing d with
  | nil => left; simpa using h
  | cons a e ih =>
    obtain ⟨k, v⟩ := a
    rw [Dict.update_cons] at h
    rcases ih _ h with h | h
    · rcases mem_set _ _ _ _ h with h | h
      · exact Or.inl h
      · right; rw [h]; simp
    · right; exact List.mem_cons_of_mem _ h

/-! ### trees of lists -/

/-- records without dictionaries in them -/
def Flat (e : Dict Key Val) : Prop := Dict.WF e ∧ ∀ kv ∈ e, NotDict kv.2

/-- Along the keys there are only lists, with flat records as last items. -/
def OkAt : List Key → Dict Key Val → Prop
  | [], _ => True
  | k :: ks, d => ∀ v, Dict.get? d k = some v → ∃ xs, v = .list xs ∧ ∀ x, xs.getLast? = some x → ∃ e, x = .dict e ∧ Flat e ∧ OkAt ks e

/-- the list at the end of the keys -/
def listAt : List Key → Dict Key Val → List Val
  | [], _ => []
  | [k], d => recsAt d k
  | k :: k' :: ks, d => listAt (k' :: ks) (lastRec (recsAt d k))

theorem flat_nil : Flat [] := ⟨by simp [Dict.WF, Dict.keys], by simp⟩

theorem flat_set (d : Dict Key Val) (k : Key) (xs : List Val) (h : Flat d) : Flat (Dict.set d k (.list xs)) := by
  refine ⟨Dict.WF_set _ _ _ h.1, fun kv hkv => ?_⟩
  rcases mem_set _ _ _ _ hkv with h' | rfl
  · exact h.2 kv h'
  · trivial

theorem flat_update (d e : Dict Key Val) (h : Flat d) (he : ∀ kv ∈ e, NotDict kv.2) : Flat (Dict.update d e) := by
  refine ⟨Dict.WF_update _ _ h.1, fun kv hkv => ?_⟩
  rcases mem_update _ _ _ hkv with h' | h'
  · exact h.2 kv h'
  · exact he kv h'

theorem okAt_nil (ks : List Key) : OkAt ks [] := by
  cases ks with
  | nil => trivial
  | cons k ks => intro v hv; simp at hv

theorem okAt_recs {k : Key} {ks : List Key} {d : Dict Key Val} (h : OkAt (k :: ks) d) :
    (Dict.get? d k = none ∧ recsAt d k = []) ∨ (Dict.get? d k = some (.list (recsAt d k)) ∧
      ∀ x, (recsAt d k).getLast? = some x → ∃ e, x = .dict e ∧ Flat e ∧ OkAt ks e) := by
  cases hg : Dict.get? d k with
  | none => left; simp [recsAt, hg]
  | some v =>
    right
    obtain ⟨xs, rfl, hx⟩ := h v hg
    simp only [recsAt, hg]
    exact ⟨trivial, hx⟩

/-- the last record, or the empty one, is all right -/
theorem okAt_last {k : Key} {ks : List Key} {d : Dict Key Val} (h : OkAt (k :: ks) d) :
    OkAt ks (lastRec (recsAt d k)) ∧ Flat (lastRec (recsAt d k)) := by
  rcases okAt_recs h with ⟨_, h⟩ | ⟨_, h⟩
  · rw [h]; exact ⟨okAt_nil _, flat_nil⟩
  · unfold lastRec
    cases hl : (recsAt d k).getLast? with
    | none => exact ⟨okAt_nil _, flat_nil⟩
    | some x =>
      obtain ⟨e, rfl, h1, h2⟩ := h x hl
      exact ⟨h2, h1⟩

theorem okAt_of_missing (ks : List Key) (d : Dict Key Val) (h : ∀ k ∈ ks, Dict.get? d k = none) : OkAt ks d := by
  cases ks with
  | nil => trivial
  | cons k ks => intro v hv; rw [h k (by simp)] at hv; cases hv

/-- Paths of lists. -/
def Lists (path : List PItem) : Prop := ∀ p ∈ path, p.stars = 1

theorem modAt_lists {α : Type} (ti : Bool) (f : Val → PyM (Val × α)) (p : PItem) (ps : List PItem) (hnn : NN (p :: ps)) (hl : Lists (p :: ps))
    (d : Dict Key Val) (hok : OkAt (pkeys ti (p :: ps)) d) (φ : List Val → List Val) (a : α)
    (hf : f (.list (listAt (pkeys ti (p :: ps)) d)) = .ok (.list (φ (listAt (pkeys ti (p :: ps)) d)), a)) :
    modAt ti f (p :: ps) (.dict d) = .ok (.dict (inLast (pkeys ti (p :: ps)) φ d), some a) := by
  induction ps generalizing p d with
  | nil =>
    have hp : p.name ≠ nullName := hnn p (by simp)
    simp only [pkeys, List.map_cons, List.map_nil] at hok hf ⊢
    rw [modAt_cons ti f p [] hp, onLast]
    simp only [listAt] at hf
    rcases okAt_recs hok with ⟨h1, h2⟩ | ⟨h1, _⟩
    · have hfr : freshDict ti [p] = [(keyOf ti p.name, .list [])] := by simp [freshDict, hl p (by simp)]
      rw [hfr, enterKey_of_missing _ _ _ _ h1]
      rw [h2] at hf
      simp only [modAt, hf, ok_bind, pure_ok, inLast, h2]
      rw [Dict.set_of_not_mem d _ _ ((Dict.get?_eq_none_iff d _).1 h1)]
    · rw [enterKey_of_get _ _ _ _ _ h1]
      simp only [modAt, hf, ok_bind, pure_ok, inLast]
  | cons q qs ih =>
    have hp : p.name ≠ nullName := hnn p (by simp)
    have hnn' : NN (q :: qs) := fun x hx => hnn x (by simp [List.mem_cons.1 hx])
    have hl' : Lists (q :: qs) := fun x hx => hl x (by simp [List.mem_cons.1 hx])
    have hlast := okAt_last hok
    have hrec := ih q hnn' hl' (lastRec (recsAt d (keyOf ti p.name))) hlast.1 hf
    simp only [pkeys, List.map_cons] at hok hf hrec ⊢
    rw [modAt_cons ti f p (q :: qs) hp, onLast]
    have hq : q.name ≠ nullName := hnn' q (by simp)
    -- entering a list
    have hent : ∀ xs : List Val, (∀ x, xs.getLast? = some x → ∃ e, x = .dict e) → lastRec xs = lastRec (recsAt d (keyOf ti p.name)) →
        modAt ti f (q :: qs) (.list xs) =
          .ok (.list (xs.dropLast ++ [.dict (inLast (keyOf ti q.name :: qs.map (fun p => keyOf ti p.name)) φ
            (lastRec (recsAt d (keyOf ti p.name))))]), some a) := by
      intro xs hx hxl
      rw [modAt_cons ti f q qs hq] at hrec ⊢
      cases hg : xs.getLast? with
      | none =>
        have : xs = [] := by simpa using hg
        subst this
        have hn : lastRec (recsAt d (keyOf ti p.name)) = [] := by rw [← hxl]; rfl
        rw [hn] at hrec ⊢
        rw [onLast_list_nil]
        rw [onLast] at hrec
        -- the empty dictionary and the new branch lead to the same
        obtain ⟨w, hw, _, _⟩ := freshDict_cons ti q qs
        have he : enterKey (keyOf ti q.name) (freshDict ti (q :: qs)) (modAt ti f qs) (freshDict ti (q :: qs)) =
            enterKey (keyOf ti q.name) (freshDict ti (q :: qs)) (modAt ti f qs) [] := by
          rw [hw, enterKey_of_get _ _ _ _ w (by simp [Dict.get?_cons]), enterKey_of_missing _ _ _ _ (by simp)]
          simp [Dict.set]
        rw [he, hrec]
        rfl
      | some x =>
        obtain ⟨e, rfl⟩ := hx x hg
        have hs := getLast?_eq_some_split hg
        have hn : lastRec (recsAt d (keyOf ti p.name)) = e := by rw [← hxl]; simp [lastRec, hg]
        rw [hn] at hrec ⊢
        rw [hs, onLast_list_append, hrec]
        simp
    rcases okAt_recs hok with ⟨h1, h2⟩ | ⟨h1, h3⟩
    · have hfr : freshDict ti (p :: q :: qs) = [(keyOf ti p.name, .list [.dict (freshDict ti (q :: qs))])] := by
        rw [freshDict, if_pos (hl p (by simp))]
      rw [hfr, enterKey_of_missing _ _ _ _ h1]
      have hn : lastRec (recsAt d (keyOf ti p.name)) = [] := by rw [h2]; rfl
      rw [hn] at hrec hent
      have hm : modAt ti f (q :: qs) (.list [.dict (freshDict ti (q :: qs))]) =
          .ok (.list [.dict (inLast (keyOf ti q.name :: qs.map (fun p => keyOf ti p.name)) φ [])], some a) := by
        rw [modAt_cons ti f q qs hq] at hrec ⊢
        have := onLast_list_append (freshDict ti (q :: qs)) (enterKey (keyOf ti q.name) (freshDict ti (q :: qs)) (modAt ti f qs)) []
          (.dict (freshDict ti (q :: qs)))
        simp only [List.nil_append] at this
        rw [this]
        rw [onLast] at hrec ⊢
        obtain ⟨w, hw, _, _⟩ := freshDict_cons ti q qs
        have he : enterKey (keyOf ti q.name) (freshDict ti (q :: qs)) (modAt ti f qs) (freshDict ti (q :: qs)) =
            enterKey (keyOf ti q.name) (freshDict ti (q :: qs)) (modAt ti f qs) [] := by
          rw [hw, enterKey_of_get _ _ _ _ w (by simp [Dict.get?_cons]), enterKey_of_missing _ _ _ _ (by simp)]
          simp [Dict.set]
        rw [he, hrec]
        rfl
      rw [hm]
      simp only [ok_bind, inLast, h2, List.dropLast_nil, List.nil_append, pure_ok, lastRec, List.getLast?_nil]
      rw [Dict.set_of_not_mem d _ _ ((Dict.get?_eq_none_iff d _).1 h1)]
    · rw [enterKey_of_get _ _ _ _ _ h1]
      rw [hent (recsAt d (keyOf ti p.name)) (fun x hx => by obtain ⟨e, he, _⟩ := h3 x hx; exact ⟨e, he⟩) rfl]
      simp only [ok_bind, inLast, pure_ok]

end TTP
