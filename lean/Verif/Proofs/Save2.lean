import Verif.Proofs.Save
/-! # Composition of paths, merging -/

namespace TTP
open Py Spec

theorem NN_append {p q : List PItem} (h : NN (p ++ q)) : NN p ∧ NN q :=
  ⟨fun x hx => h x (by simp [hx]), fun x hx => h x (by simp [hx])⟩

theorem pkeys_append (ti : Bool) (p q : List PItem) : pkeys ti (p ++ q) = pkeys ti p ++ pkeys ti q := by
  simp [pkeys]

/-- going along `p` and then along `q` -/
theorem modAt_append {α : Type} (ti : Bool) (f : Val → PyM (Val × α)) (p q : List PItem) (hnn : NN p)
    (R x x' : Val) (b : Option α) (hat : At (pkeys ti p) R x) (hf : modAt ti f q x = .ok (x', b)) :
    ∃ R', modAt ti f (p ++ q) R = .ok (R', b) ∧ At (pkeys ti p) R' x' ∧ (x' = x → R' = R) := by
  induction p generalizing R with
  | nil => cases hat; exact ⟨x', hf, At.here _, fun h => h⟩
  | cons p ps ih =>
    obtain ⟨hp, hps⟩ := NN_cons hnn
    have key : ∀ d w, Dict.get? d (keyOf ti p.name) = some w → At (pkeys ti ps) w x →
        ∃ d', modAt ti f (p :: ps ++ q) (.dict d) = .ok (.dict d', b) ∧ At (pkeys ti (p :: ps)) (.dict d') x' ∧
          (x' = x → d' = d) := by
      intro d w hd hw
      obtain ⟨w', hw1, hw2, hw3⟩ := ih hps w hw
      refine ⟨Dict.set d (keyOf ti p.name) w', ?_, ?_, ?_⟩
      · rw [List.cons_append, modAt_cons ti f p _ hp, onLast, enterKey_of_get _ _ _ _ _ hd, hw1]; rfl
      · exact At.key (Dict.get?_set_self _ _ _) hw2
      · intro e; rw [hw3 e, Dict.set_get?_self d _ w hd]
    simp only [pkeys, List.map_cons] at hat
    cases hat with
    | key hd hw =>
      obtain ⟨d', h1, h2, h3⟩ := key _ _ hd hw
      exact ⟨_, h1, h2, fun e => by rw [h3 e]⟩
    | @last k ks xs d _ hl hd =>
      cases hd with
      | key hd hw =>
        obtain ⟨d', h1, h2, h3⟩ := key _ _ hd hw
        have hx := getLast?_eq_some_split hl
        refine ⟨.list (xs.dropLast ++ [.dict d']), ?_, ?_, ?_⟩
        · rw [List.cons_append, modAt_cons ti f p _ hp] at h1 ⊢
          rw [hx, onLast_list_append, h1]; simp
        · exact At.last (d := d') (by simp) h2
        · intro e; rw [h3 e, ← hx]

theorem valueToList_append (r : Val) (p q : List PItem) (hnn : NN p) (R x x' : Val)
    (hat : At (p.map (fun p => Key.s p.name)) R x) (hf : valueToList r q x = .ok x') :
    ∃ R', valueToList r (p ++ q) R = .ok R' ∧ At (p.map (fun p => Key.s p.name)) R' x' := by
  induction p generalizing R with
  | nil => cases hat; exact ⟨x', hf, At.here _⟩
  | cons p ps ih =>
    obtain ⟨hp, hps⟩ := NN_cons hnn
    simp only [List.map_cons] at hat ⊢
    cases hat with
    | key hd hw =>
      rename_i d w
      obtain ⟨w', h1, h2⟩ := ih hps w hw
      refine ⟨.dict (Dict.set d (.s p.name) w'), ?_, At.key (Dict.get?_set_self _ _ _) h2⟩
      rw [List.cons_append, valueToList_cons r p _ hp, vtlName]
      simp only [hd, h1, ok_bind, pure_ok]
    | last hl hd =>
      rename_i xs d
      cases hd with
      | key hd hw =>
        rename_i w
        obtain ⟨w', h1, h2⟩ := ih hps w hw
        refine ⟨.list (xs.dropLast ++ [.dict (Dict.set d (.s p.name) w')]), ?_, ?_⟩
        · rw [List.cons_append, valueToList_cons r p _ hp, vtlName]
          simp only [hl, hd, h1, ok_bind, pure_ok]
        · exact At.last (d := Dict.set d (.s p.name) w') (by simp) (At.key (Dict.get?_set_self _ _ _) h2)

theorem isDStar_append (p q : List PItem) (h : q ≠ []) : isDStar (p ++ q) = isDStar q := by
  have : (p ++ q).getLast? = q.getLast? := by
    rw [List.getLast?_append]
    cases hq : q.getLast? with
    | none => exact absurd (List.getLast?_eq_none_iff.1 hq) h
    | some x => rfl
  unfold isDStar; rw [this]

theorem NoInt_append {ti : Bool} {p q : List PItem} (h : NoInt ti (p ++ q)) : NoInt ti p ∧ NoInt ti q :=
  ⟨fun x hx => h x (by simp [hx]), fun x hx => h x (by simp [hx])⟩

/-- modification below a list goes into its last item -/
theorem modAt_list_last {α : Type} (ti : Bool) (f : Val → PyM (Val × α)) (p : PItem) (ps : List PItem)
    (hp : p.name ≠ nullName) (xs : List Val) (y y' : Val) (b : Option α)
    (h : modAt ti f (p :: ps) y = .ok (y', b)) :
    modAt ti f (p :: ps) (.list (xs ++ [y])) = .ok (.list (xs ++ [y']), b) := by
  rw [modAt_cons ti f p ps hp] at h ⊢
  rw [onLast_list_append, h]; rfl

theorem modAt_dict_dict {α : Type} (ti : Bool) (f : Val → PyM (Val × α)) (p : PItem) (ps : List PItem)
    (hp : p.name ≠ nullName) (d : Dict Key Val) (y' : Val) (b : Option α)
    (h : modAt ti f (p :: ps) (.dict d) = .ok (y', b)) : ∃ d', y' = .dict d' := by
  rw [modAt_cons ti f p ps hp, onLast] at h
  unfold enterKey at h
  simp only at h
  split at h
  · rw [bind_ok_iff] at h
    obtain ⟨_, _, h⟩ := h
    simp only [pure_ok, Except.ok.injEq, Prod.mk.injEq] at h
    exact ⟨_, h.1.symm⟩
  · simp at h

theorem save_child (ti m : Bool) (data : Val) (p q : List PItem) (hnn : NN (p ++ q)) (hni : NoInt ti (p ++ q))
    (hq : q ≠ []) (R : Val) (xs : List Val) (d : Dict Key Val) (hno : NoNested (.dict d)) (v' : Val)
    (hat : At (pkeys ti p) R (.list (xs ++ [.dict d]))) (h : save ti m data q (.dict d) = .ok v') :
    ∃ R', save ti m data (p ++ q) R = .ok R' ∧ At (pkeys ti p) R' (.list (xs ++ [v'])) := by
  obtain ⟨hp, hqn⟩ := NN_append hnn
  obtain ⟨hip, hiq⟩ := NoInt_append hni
  cases q with
  | nil => exact absurd rfl hq
  | cons q qs =>
    simp only [save, bind_ok_iff] at h
    obtain ⟨⟨d1, b⟩, h1, h2⟩ := h
    have hd : isDStar (p ++ q :: qs) = isDStar (q :: qs) := isDStar_append p (q :: qs) (by simp)
    have h3 := modAt_list_last ti _ q qs (NN_cons hqn).1 xs _ _ _ h1
    obtain ⟨R1, h4, h5, h6⟩ := modAt_append ti _ p (q :: qs) hp R _ _ _ hat h3
    by_cases hb : b = some true
    · subst hb
      obtain ⟨h7, e, h8, -, -, -⟩ := modAt_flag_true ti m data (q :: qs) hqn _ _ hno h1
      subst h7
      have h9 := h6 rfl; subst h9
      simp only [if_true, popNull_NN _ hqn] at h2
      obtain ⟨d2, h10⟩ : ∃ d2, v' = .dict d2 := by
        rw [pkeys_NoInt hiq] at h8
        rw [valueToList_cons _ _ _ (NN_cons hqn).1, vtlName] at h2
        simp only [List.map_cons] at h8
        cases h8 with
        | key hg hw =>
          simp only [hg, bind_ok_iff, pure_ok, Except.ok.injEq] at h2
          obtain ⟨_, _, h2⟩ := h2
          exact ⟨_, h2.symm⟩
      have h11 : valueToList data (q :: qs) (.list (xs ++ [.dict d])) = .ok (.list (xs ++ [v'])) := by
        rw [pkeys_NoInt hiq] at h8
        rw [valueToList_cons _ _ _ (NN_cons hqn).1] at h2 ⊢
        rw [vtlName] at h2
        simp only [List.map_cons] at h8
        cases h8 with
        | key hg hw =>
          simp only [hg, bind_ok_iff, pure_ok, Except.ok.injEq] at h2
          obtain ⟨w, hw1, h2⟩ := h2
          simp [vtlName, hg, hw1, h2]
      rw [pkeys_NoInt hip] at hat
      obtain ⟨R2, h12, h13⟩ := valueToList_append data p (q :: qs) hp _ _ _ hat h11
      refine ⟨R2, ?_, by rw [pkeys_NoInt hip]; exact h13⟩
      simp only [save, hd, h4, ok_bind, if_true, popNull_NN _ hnn, h12]
    · simp only [hb, if_false, pure_ok, Except.ok.injEq] at h2
      subst h2
      refine ⟨R1, ?_, h5⟩
      simp [save, hd, h4, hb]

/-! ### null path -/

/-- Once the parent exists, a null item in the middle of a path is as if it were not there (element lookup). -/
theorem modAt_null_mid {α : Type} (f : Val → PyM (Val × α)) (n q : PItem) (qs : List PItem)
    (hn : n.name = nullName) (hq : q.name ≠ nullName) (d : Dict Key Val) (xs : List Val) :
    modAt false f (n :: q :: qs) (.dict d) = modAt false f (q :: qs) (.dict d) ∧
    modAt false f (n :: q :: qs) (.list (xs ++ [.dict d])) = modAt false f (q :: qs) (.list (xs ++ [.dict d])) := by
  have hk : keyOf false q.name = .s q.name := by simp [keyOf]
  have h1 : modAt false f (n :: q :: qs) (.dict d) = modAt false f (q :: qs) (.dict d) := by
    rw [modAt_cons false f q qs hq, hk]
    simp only [modAt, hn, if_true, onLast]
  refine ⟨h1, ?_⟩
  rw [modAt_cons false f q qs hq, hk]
  simp only [modAt, hn, if_true]
  rw [onLast_list_append, onLast_list_append, onLast, onLast]

theorem valueToList_null_mid (r : Val) (n q : PItem) (qs : List PItem)
    (hn : n.name = nullName) (hq : q.name ≠ nullName) (v : Val) :
    valueToList r (n :: q :: qs) v = valueToList r (q :: qs) v := by
  rw [valueToList_cons r q qs hq]
  simp only [valueToList, hn, if_true]

/-- two paths that behave the same at an element behave the same below it -/
theorem modAt_append_congr {α : Type} (ti : Bool) (f : Val → PyM (Val × α)) (p q q' : List PItem) (hnn : NN p)
    (R x : Val) (hat : At (pkeys ti p) R x) (hf : modAt ti f q x = modAt ti f q' x) :
    modAt ti f (p ++ q) R = modAt ti f (p ++ q') R := by
  induction p generalizing R with
  | nil => cases hat; exact hf
  | cons p ps ih =>
    obtain ⟨hp, hps⟩ := NN_cons hnn
    simp only [pkeys, List.map_cons] at hat
    rw [List.cons_append, List.cons_append, modAt_cons ti f p _ hp, modAt_cons ti f p _ hp]
    cases hat with
    | key hd hw => rw [onLast, onLast, enterKey_of_get _ _ _ _ _ hd, enterKey_of_get _ _ _ _ _ hd, ih hps _ hw]
    | last hl hd =>
      cases hd with
      | key hd hw =>
        rw [getLast?_eq_some_split hl, onLast_list_append, onLast_list_append, onLast, onLast,
          enterKey_of_get _ _ _ _ _ hd, enterKey_of_get _ _ _ _ _ hd, ih hps _ hw]

theorem valueToList_append_congr (r : Val) (p q q' : List PItem) (hnn : NN p) (h : ∀ v, valueToList r q v = valueToList r q' v) (R : Val) :
    valueToList r (p ++ q) R = valueToList r (p ++ q') R := by
  induction p generalizing R with
  | nil => exact h R
  | cons p ps ih =>
    obtain ⟨hp, hps⟩ := NN_cons hnn
    rw [List.cons_append, List.cons_append, valueToList_cons r p _ hp, valueToList_cons r p _ hp]
    have : valueToList r (ps ++ q) = valueToList r (ps ++ q') := funext (fun v => ih hps v)
    rw [this]

/-! ### merging -/

theorem mergeRec_append (e : Dict Key Val) (r s : List (Key × Val)) :
    mergeRec e (r ++ s) = (mergeRec e r >>= fun e' => mergeRec e' s) := by
  induction r generalizing e with
  | nil => simp [mergeRec]
  | cons a r ih =>
    obtain ⟨k, v⟩ := a
    simp only [List.cons_append, mergeRec]
    cases mergeVal (Dict.get? e k) v with
    | error er => rfl
    | ok w => simp only [ok_bind]; exact ih _

/-- keys that are not mentioned keep their value -/
theorem mergeRec_get_other (e : Dict Key Val) (r : List (Key × Val)) (e' : Dict Key Val)
    (h : mergeRec e r = .ok e') (k : Key) (hk : k ∉ Dict.keys r) : Dict.get? e' k = Dict.get? e k := by
  induction r generalizing e with
  | nil => simp only [mergeRec, pure_ok, Except.ok.injEq] at h; rw [h]
  | cons a r ih =>
    obtain ⟨q, v⟩ := a
    simp only [Dict.keys, List.map_cons, List.mem_cons, not_or] at hk
    simp only [mergeRec, bind_ok_iff] at h
    obtain ⟨w, _, h⟩ := h
    rw [ih _ h hk.2, Dict.get?_set_ne _ _ (Ne.symm hk.1)]

/-- a mentioned key gets the merged value -/
theorem mergeRec_get_self (e : Dict Key Val) (r : List (Key × Val)) (hr : Dict.WF r) (e' : Dict Key Val)
    (h : mergeRec e r = .ok e') (k : Key) (v : Val) (hk : Dict.get? r k = some v) :
    ∃ w, mergeVal (Dict.get? e k) v = .ok w ∧ Dict.get? e' k = some w := by
  induction r generalizing e with
  | nil => simp at hk
  | cons a r ih =>
    obtain ⟨q, u⟩ := a
    rw [Dict.WF_cons] at hr
    simp only [mergeRec, bind_ok_iff] at h
    obtain ⟨w, hw, h⟩ := h
    rw [Dict.get?_cons] at hk
    by_cases hq : q = k
    · subst hq
      simp only [if_true, Option.some.injEq] at hk
      subst hk
      refine ⟨w, hw, ?_⟩
      rw [mergeRec_get_other _ _ _ h q hr.1, Dict.get?_set_self]
    · simp only [hq, if_false] at hk
      obtain ⟨w2, h1, h2⟩ := ih _ hr.2 h hk
      rw [Dict.get?_set_ne _ _ hq] at h1
      exact ⟨w2, h1, h2⟩

theorem DeepWFD_get {d : Dict Key Val} {k : Key} {v : Val} (h : DeepWFD d) (hd : Dict.get? d k = some v) :
    DeepWF v := by
  induction d with
  | nil => simp at hd
  | cons a d ih =>
    obtain ⟨k', v'⟩ := a
    rw [DeepWFD] at h
    rw [Dict.get?_cons] at hd
    by_cases e : k' = k
    · simp only [e, if_true, Option.some.injEq] at hd; rw [← hd]; exact h.1
    · simp only [e, if_false] at hd; exact ih h.2 hd

theorem dget_cons (k : Key) (ks : List Key) (d : Dict Key Val) :
    dget (k :: ks) (.dict d) = (Dict.get? d k).bind (dget ks) := rfl

theorem dget_scalar (k : Key) (ks : List Key) (v : Val) (h : NotDict v) : dget (k :: ks) v = none := by
  cases v <;> simp_all [NotDict, dget, Spec.get]

theorem mergeVal_notDict (old : Option Val) (v : Val) (h : NotDict v) : mergeVal old v = .ok v := by
  cases v <;> simp_all [NotDict, mergeVal]

theorem mergeRec_Merged : ∀ (ks : List Key) (e r e' : Dict Key Val), DeepWF (.dict r) → mergeRec e r = .ok e' →
    (∀ v, dget ks (.dict r) = some v → NotDict v → dget ks (.dict e') = some v) ∧
    (Unmentioned ks r → dget ks (.dict e') = dget ks (.dict e)) := by
  intro ks
  induction ks with
  | nil =>
    intro e r e' hr h
    refine ⟨?_, fun hu => by cases hu⟩
    intro v hv hnd
    simp only [dget, List.map_nil, Spec.get, Option.some.injEq] at hv
    subst hv; exact absurd hnd (by simp [NotDict])
  | cons k ks ih =>
    intro e r e' hr h
    rw [DeepWF] at hr
    constructor
    · intro v hv hnd
      rw [dget_cons] at hv ⊢
      cases hg : Dict.get? r k with
      | none => simp [hg] at hv
      | some w =>
        simp only [hg, Option.bind_some] at hv
        obtain ⟨w2, h1, h2⟩ := mergeRec_get_self e r hr.1 e' h k w hg
        rw [h2]; simp only [Option.bind_some]
        cases w with
        | dict nd =>
          have hw := DeepWFD_get hr.2 hg
          cases ks with
          | nil => simp only [dget, List.map_nil, Spec.get, Option.some.injEq] at hv; subst hv; simp [NotDict] at hnd
          | cons k2 ks2 =>
          unfold mergeVal at h1
          split at h1
          · rename_i od heq
            split at h1
            · simp only [pure_ok, Except.ok.injEq] at h1; rw [← h1]; exact hv
            · rw [bind_ok_iff] at h1
              obtain ⟨e2, h3, h4⟩ := h1
              simp only [pure_ok, Except.ok.injEq] at h4
              rw [← h4]
              exact (ih od nd e2 hw h3).1 v hv hnd
          · split at h1
            · split at h1
              · rename_i hemp
                have : nd = [] := by simpa using hemp
                subst this
                simp [dget_cons] at hv
              · simp at h1
            · simp only [pure_ok, Except.ok.injEq] at h1; rw [← h1]; exact hv
          · simp only [pure_ok, Except.ok.injEq] at h1; rw [← h1]; exact hv
        | _ =>
          rw [mergeVal_notDict _ _ (by simp [NotDict])] at h1
          simp only [Except.ok.injEq] at h1
          rw [← h1]; exact hv
    · intro hu
      cases hu with
      | missing hm =>
        rw [dget_cons, dget_cons, mergeRec_get_other e r e' h k ((Dict.get?_eq_none_iff r k).1 hm)]
      | deeper hd hu =>
        rename_i nd
        rw [dget_cons, dget_cons]
        obtain ⟨w2, h1, h2⟩ := mergeRec_get_self e r hr.1 e' h k _ hd
        have hw := DeepWFD_get hr.2 hd
        rw [h2]
        simp only [Option.bind_some]
        obtain ⟨k2, ks2, rfl⟩ : ∃ k2 ks2, ks = k2 :: ks2 := by cases hu <;> exact ⟨_, _, rfl⟩
        have hnone : dget (k2 :: ks2) (.dict nd) = none := by
          clear h1 h2 hw hd ih
          generalize hk : (k2 :: ks2) = kk at hu ⊢
          clear hk
          induction hu with
          | missing hm => rw [dget_cons, hm]; rfl
          | deeper hd _ ih => rw [dget_cons, hd]; simpa using ih
        unfold mergeVal at h1
        split at h1
        · rename_i od heq
          rw [heq]
          simp only [Option.bind_some]
          split at h1
          · rename_i hemp
            have : od = [] := by simpa using hemp
            subst this
            simp only [pure_ok, Except.ok.injEq] at h1
            rw [← h1, hnone]; simp [dget_cons]
          · rw [bind_ok_iff] at h1
            obtain ⟨e2, h3, h4⟩ := h1
            simp only [pure_ok, Except.ok.injEq] at h4
            rw [← h4]
            exact (ih od nd e2 hw h3).2 hu
        · rename_i v hnd heq
          rw [heq]
          simp only [Option.bind_some]
          split at h1
          · split at h1
            · simp only [pure_ok, Except.ok.injEq] at h1; rw [h1]
            · simp at h1
          · simp only [pure_ok, Except.ok.injEq] at h1
            rw [← h1, hnone]
            rw [dget_scalar]
            cases v with
            | dict d => exact absurd rfl (hnd d)
            | _ => simp [NotDict]
        · rename_i heq
          simp only [pure_ok, Except.ok.injEq] at h1
          rw [heq, ← h1, hnone]; rfl

theorem mergeRec_flat (e r : Dict Key Val) (h : ∀ kv ∈ r, NotDict kv.2) : mergeRec e r = .ok (Dict.update e r) := by
  induction r generalizing e with
  | nil => simp [mergeRec]
  | cons a r ih =>
    obtain ⟨k, v⟩ := a
    rw [mergeRec, mergeVal_notDict _ _ (h (k, v) (by simp))]
    simp only [ok_bind]
    rw [ih _ (fun kv hkv => h kv (by simp [hkv])), Dict.update_cons]

end TTP
