import Verif.Proofs.Nest3
import Verif.Props.Machine
/-!
# C85: nested groups
-/

namespace Props
open Py Spec TTP

namespace Ex

/-- `interfaces*` and `interfaces*.vlans*` -/
def nGroups : List (List Str) := [[c!"interfaces"], [c!"interfaces", c!"vlans"]]
/-- identities -/
def nId (g : List Str) : GId := (join c!"." (g.map (· ++ c!"*")), 0)
/-- the interfaces have a default -/
def nDflt (g : List Str) : Dict Key Val := if g = [c!"interfaces"] then [(.s c!"mtu", .str c!"1500")] else []
/-- a template line of a group -/
def nRe (g : List Str) (a : Action) : RE :=
  ⟨nId g, if g.dropLast = [] then none else some (nId g.dropLast), g.map (· ++ c!"*"), nDflt g, [], a, false, []⟩
/-- the two groups -/
def gIf : List Str := [c!"interfaces"]
def gVl : List Str := [c!"interfaces", c!"vlans"]
/-- an interface with two vlans, a late line of it, a vlan line that is lost, an interface with a vlan line that is lost and a vlan -/
def nEvs : List NEv := [.line gVl (kv c!"descr" c!"lost"), .start gIf (kv c!"name" c!"Lo0"), .start gVl (kv c!"id" c!"1"),
  .line gVl (kv c!"descr" c!"a"), .start gVl (kv c!"id" c!"2"), .line gIf (kv c!"mtu" c!"9000"), .line gVl (kv c!"descr" c!"lost"),
  .start gIf (kv c!"name" c!"Lo1"), .line gVl (kv c!"descr" c!"lost"), .start gVl (kv c!"id" c!"3"), .stop gVl, .line gVl (kv c!"descr" c!"lost")]
/-- the match of an event -/
def nHit : NEv → Hit
  | .start g d => (nRe g .start, some d)
  | .line g d => (nRe g .add, some d)
  | .bad g => (nRe g .add, none)
  | .stop g => (nRe g .end_, some [])

theorem nGroups_ok : GroupsOK false nGroups nId nDflt := by
  refine ⟨by decide, by decide, by decide, by decide, ?_⟩
  intro g hg
  unfold Plain
  simp only [nGroups, List.mem_cons, List.not_mem_nil, or_false] at hg
  rcases hg with rfl | rfl
  · refine ⟨by unfold Dict.WF; decide, ?_⟩
    intro kv hkv
    simp only [nDflt, if_true, List.mem_singleton] at hkv
    subst hkv
    exact ⟨trivial, by decide⟩
  · refine ⟨by unfold Dict.WF; decide, ?_⟩
    intro kv hkv
    simp [nDflt] at hkv

theorem plain_kv (k v : Str) (h : ∀ g ∈ nGroups, ∀ n ∈ g, k ≠ n) : Plain false nGroups (kv k v) := by
  refine ⟨by simp [kv, Dict.WF, Dict.keys], ?_⟩
  intro x hx
  simp only [kv, List.mem_singleton] at hx
  subst hx
  exact ⟨trivial, fun g hg n hn e => h g hg n hn (by simpa [pathKey] using e)⟩

theorem nHit_tells (e : NEv) (hg : e.group ∈ nGroups) (hd : Plain false nGroups e.data) : Tells false nGroups nId nDflt (nHit e) e := by
  cases e with
  | start g d => exact ⟨hg, ⟨rfl, rfl, rfl, rfl, rfl, rfl⟩, Or.inl ⟨rfl, rfl⟩, hd⟩
  | line g d => exact ⟨hg, ⟨rfl, rfl, rfl, rfl, rfl, rfl⟩, ⟨rfl, rfl⟩, hd⟩
  | bad g => exact ⟨hg, ⟨rfl, rfl, rfl, rfl, rfl, rfl⟩, rfl, hd⟩
  | stop g => exact ⟨hg, ⟨rfl, rfl, rfl, rfl, rfl, rfl⟩, ⟨rfl, by simp [nHit]⟩, hd⟩

theorem all2_map {α β : Type} (R : β → α → Prop) (f : α → β) (l : List α) (h : ∀ x ∈ l, R (f x) x) : All2 R (l.map f) l := by
  induction l with
  | nil => exact .nil
  | cons x l ih => exact .cons (h x (by simp)) (ih (fun y hy => h y (by simp [hy])))

theorem nEvs_tells : All2 (Tells false nGroups nId nDflt) (nEvs.map nHit) nEvs := by
  apply all2_map
  intro e he
  simp only [nEvs, List.mem_cons, List.not_mem_nil, or_false] at he
  rcases he with rfl | rfl | rfl | rfl | rfl | rfl | rfl | rfl | rfl | rfl | rfl | rfl <;>
    first
    | exact nHit_tells _ (by decide) (plain_kv _ _ (by decide))
    | exact nHit_tells _ (by decide) ⟨by unfold Dict.WF; decide, by intro x hx; cases hx⟩

end Ex

/-- C85. Matches of nested groups with list paths (of any depth), without functions: the results are the tree of the records the matches
are cut into; an `_end_` before every record raises `IndexError`. -/
theorem C85_nested_groups (toInt : Bool) (gf : GroupFns) (vars gvars : Dict Str Val) (groups : List (List Str)) (id : List Str → GId)
    (dflt : List Str → Dict Key Val) (hok : GroupsOK toInt groups id dflt) (hits : List Hit) (evs : List NEv)
    (ht : All2 (Tells toInt groups id dflt) hits evs) :
    (makeResults toInt gf [] vars gvars [hits.map ([·])] (.dict [])).map (·.results) =
      match Desk.run ⟨[], [], []⟩ evs with
      | some D => .ok (.dict (treeOf toInt dflt D.recs))
      | none => .error .indexError := by
  have hsv : saveVars toInt [] ⟨.dict [], [], [], Record.empty, [], vars, gvars⟩ =
      .ok ⟨.dict [], [], [], Record.empty, [], vars, gvars⟩ := by
    simp [saveVars, sorted, saveVarsAll, pure_ok, ok_bind]
  have hsim : Sim toInt groups id dflt ⟨.dict [], [], [], Record.empty, [], vars, gvars⟩ ⟨[], [], []⟩ :=
    ⟨rfl, by simp, by simp, by simp, trivial, Or.inl ⟨rfl, rfl, rfl, rfl⟩⟩
  have hs := steps_sim toInt gf groups id dflt hok hits evs ht _ _ hsim
  unfold makeResults
  simp only [List.isEmpty_cons, Bool.false_eq_true, if_false, hsv, ok_bind, List.flatten_cons, List.flatten_nil, List.append_nil]
  cases hr : Desk.run ⟨[], [], []⟩ evs with
  | none =>
    rw [hr] at hs
    simp only at hs
    rw [hs]
    rfl
  | some D =>
    rw [hr] at hs
    obtain ⟨ms', e1, e2⟩ := hs
    rw [e1]
    simp only [ok_bind]
    have := (flush_sim toInt gf groups id dflt hok ms' D e2 ms'.started ms'.ended).1
    have e : ({ ms' with started := ms'.started, ended := ms'.ended } : MS) = ms' := rfl
    rw [e] at this
    rw [this]
    rfl

/-- The example, by the theorem: a tree with two interfaces and their vlans, the late value in the first one. -/
example : (makeResults false Ex.gf0 [] [] [] [(Ex.nEvs.map Ex.nHit).map ([·])] (.dict [])).map (·.results) =
    .ok (.dict [(.s c!"interfaces", .list [
      .dict [(.s c!"name", .str c!"Lo0"), (.s c!"mtu", .str c!"9000"),
        (.s c!"vlans", .list [.dict [(.s c!"descr", .str c!"a"), (.s c!"id", .str c!"1")], .dict [(.s c!"id", .str c!"2")]])],
      .dict [(.s c!"name", .str c!"Lo1"), (.s c!"mtu", .str c!"1500"), (.s c!"vlans", .list [.dict [(.s c!"id", .str c!"3")]])]])]) := by
  rw [C85_nested_groups false Ex.gf0 [] [] Ex.nGroups Ex.nId Ex.nDflt Ex.nGroups_ok _ _ Ex.nEvs_tells]
  decide +kernel

/-- An `_end_` line before any record. -/
example : (makeResults false Ex.gf0 [] [] [] [([Spec.NEv.stop Ex.gVl].map Ex.nHit).map ([·])] (.dict [])).map (·.results) =
    .error .indexError := by
  rw [C85_nested_groups false Ex.gf0 [] [] Ex.nGroups Ex.nId Ex.nDflt Ex.nGroups_ok _ _
    (Ex.all2_map _ _ _ (fun e he => by
      rw [List.mem_singleton] at he
      subst he
      exact Ex.nHit_tells _ (by decide) ⟨by unfold Dict.WF; decide, by intro x hx; cases hx⟩))]
  rfl

/-! ## Lines without a start -/

theorem desk_run_append (D : Desk) (a b : List NEv) : D.run (a ++ b) = (D.run a).bind (·.run b) := by
  induction a generalizing D with
  | nil => rfl
  | cons e a ih =>
    simp only [List.cons_append, Desk.run]
    cases D.step e with
    | none => rfl
    | some D' => simp only [Option.bind_some]; exact ih D'

/-- starts and lines -/
def Ordinary (e : NEv) : Prop := match e with
  | .start _ _ => True
  | .line _ _ => True
  | _ => False

theorem desk_off (D D' : Desk) (h : D.off = []) (evs : List NEv) (ho : ∀ e ∈ evs, Ordinary e) (hr : D.run evs = some D') : D'.off = [] := by
  induction evs generalizing D with
  | nil => simp only [Desk.run, Option.some.injEq] at hr; rw [← hr]; exact h
  | cons e evs ih =>
    simp only [Desk.run, Option.bind_eq_some_iff] at hr
    obtain ⟨D1, h1, h2⟩ := hr
    refine ih D1 ?_ (fun x hx => ho x (by simp [hx])) h2
    have hoe := ho e (by simp)
    cases e with
    | bad g => exact hoe.elim
    | stop g => exact hoe.elim
    | start g d =>
      simp only [Desk.step, h, List.not_mem_nil, if_false, List.filter_nil, Option.some.injEq] at h1
      rw [← h1]
    | line g d =>
      simp only [Desk.step, h, List.not_mem_nil, or_self, if_false] at h1
      split at h1
      · simp only [Option.some.injEq] at h1; rw [← h1]; exact h
      · split at h1
        · simp only [Option.some.injEq] at h1; rw [← h1]
        · split at h1
          · simp only [Option.some.injEq] at h1; rw [← h1]
          · simp only [Option.some.injEq] at h1; rw [← h1]; exact h

/-- C85. A line of a child group that comes after the start of a parent record and before any start of the child in it (only lines of
the parent between) has no effect: it goes neither into this record nor into a child of an earlier one. -/
theorem C85_line_before_start (toInt : Bool) (gf : GroupFns) (vars gvars : Dict Str Val) (groups : List (List Str)) (id : List Str → GId)
    (dflt : List Str → Dict Key Val) (hok : GroupsOK toInt groups id dflt) (p : List Str) (n : Str) (d0 d1 : Dict Key Val)
    (hpre hmid hpost : List Hit) (h0 h1 : Hit) (pre mid post : List NEv)
    (tpre : All2 (Tells toInt groups id dflt) hpre pre) (t0 : Tells toInt groups id dflt h0 (.start p d0))
    (tmid : All2 (Tells toInt groups id dflt) hmid mid) (t1 : Tells toInt groups id dflt h1 (.line (p ++ [n]) d1))
    (tpost : All2 (Tells toInt groups id dflt) hpost post)
    (ho : ∀ e ∈ pre, Ordinary e) (hm : ∀ e ∈ mid, ∃ d, e = .line p d) :
    (makeResults toInt gf [] vars gvars [(hpre ++ h0 :: hmid ++ h1 :: hpost).map ([·])] (.dict [])).map (·.results) =
      (makeResults toInt gf [] vars gvars [(hpre ++ h0 :: hmid ++ hpost).map ([·])] (.dict [])).map (·.results) := by
  have app : ∀ {a b : List Hit} {c e : List NEv}, All2 (Tells toInt groups id dflt) a c → All2 (Tells toInt groups id dflt) b e →
      All2 (Tells toInt groups id dflt) (a ++ b) (c ++ e) := by
    intro a b c e h h'
    induction h with
    | nil => exact h'
    | cons h1 _ ih => exact .cons h1 ih
  rw [C85_nested_groups toInt gf vars gvars groups id dflt hok _ (pre ++ .start p d0 :: mid ++ .line (p ++ [n]) d1 :: post)
      (app (app tpre (.cons t0 tmid)) (.cons t1 tpost)),
    C85_nested_groups toInt gf vars gvars groups id dflt hok _ (pre ++ .start p d0 :: mid ++ post) (app (app tpre (.cons t0 tmid)) tpost)]
  suffices hrun : Desk.run ⟨[], [], []⟩ (pre ++ .start p d0 :: mid ++ .line (p ++ [n]) d1 :: post) =
      Desk.run ⟨[], [], []⟩ (pre ++ .start p d0 :: mid ++ post) by rw [hrun]
  rw [desk_run_append, desk_run_append _ _ post, desk_run_append]
  cases hD : Desk.run ⟨[], [], []⟩ pre with
  | none => rfl
  | some D =>
    have hoff := desk_off _ D rfl pre ho hD
    simp only [Option.bind_some, Desk.run, Desk.step, hoff, List.not_mem_nil, if_false, List.filter_nil]
    -- lines of the parent keep the parent in front
    have hlines : ∀ (mid : List NEv), (∀ e ∈ mid, ∃ d, e = .line p d) → ∀ (l : List (List Str)) (d : Dict Key Val) (rs : List NRec),
        ∃ d', Desk.run ⟨[], l, ⟨p, false, d⟩ :: rs⟩ mid = some ⟨[], l, ⟨p, false, d'⟩ :: rs⟩ := by
      intro mid
      induction mid with
      | nil => intro _ l d rs; exact ⟨d, rfl⟩
      | cons e mid ih =>
        intro hm l d rs
        obtain ⟨de, rfl⟩ := hm e (by simp)
        obtain ⟨d', hd'⟩ := ih (fun x hx => hm x (by simp [hx])) l (Dict.update de d) rs
        exact ⟨d', by simpa [Desk.run, Desk.step] using hd'⟩
    obtain ⟨d', hd'⟩ := hlines mid hm (p :: if p.dropLast ∈ D.opens then D.opens.dropWhile (· ≠ p.dropLast) else []) d0 D.recs
    rw [hd']
    simp only [Option.bind_some, List.not_mem_nil, or_self, if_false]
    have hne : p ≠ p ++ [n] := by simp
    rw [if_neg hne, if_neg]
    · rfl
    · intro hmem
      rcases List.mem_cons.1 hmem with h | h
      · exact hne h.symm
      · split at h
        · rename_i hin
          -- what is open is around the parent
          have hchain : ∀ (D D' : Desk) (evs : List NEv), OpenOk D.opens → D.run evs = some D' → OpenOk D'.opens := by
            intro D D' evs
            induction evs generalizing D with
            | nil => intro h hr; simp only [Desk.run, Option.some.injEq] at hr; rw [← hr]; exact h
            | cons e evs ih =>
              intro h hr
              simp only [Desk.run, Option.bind_eq_some_iff] at hr
              obtain ⟨D1, e1, e2⟩ := hr
              refine ih D1 ?_ e2
              cases e with
              | bad g => simp only [Desk.step, Option.some.injEq] at e1; rw [← e1]; exact h
              | start g d =>
                simp only [Desk.step] at e1
                split at e1
                · simp only [Option.some.injEq] at e1; rw [← e1]; exact h
                · simp only [Option.some.injEq] at e1; rw [← e1]; exact openOk_start _ h g
              | line g d =>
                simp only [Desk.step] at e1
                split at e1
                · simp only [Option.some.injEq] at e1; rw [← e1]; exact h
                · split at e1
                  · simp only [Option.some.injEq] at e1; rw [← e1]; exact h
                  · split at e1
                    · simp only [Option.some.injEq] at e1; rw [← e1]; exact h
                    · split at e1
                      · simp only [Option.some.injEq] at e1; rw [← e1]; exact openOk_dropWhile _ _ h
                      · simp only [Option.some.injEq] at e1; rw [← e1]; exact h
              | stop g =>
                simp only [Desk.step] at e1
                split at e1
                · simp only [Option.some.injEq] at e1; rw [← e1]; exact h
                · split at e1
                  · cases e1
                  · simp only [Option.some.injEq] at e1; rw [← e1]; exact h
          have hc := openOk_dropWhile (· ≠ p.dropLast) _ (hchain ⟨[], [], []⟩ D pre trivial hD)
          obtain ⟨r, hr⟩ := dropWhile_head D.opens _ hin
          rw [hr] at hc h
          have := (openOk_prefix _ _ hc _ h).length_le
          simp only [List.length_append, List.length_singleton, List.length_dropLast] at this
          omega
        · cases h

example : (makeResults false Ex.gf0 [] [] [] [([Spec.NEv.start Ex.gIf (Ex.kv c!"name" c!"Lo0"), .start Ex.gVl (Ex.kv c!"id" c!"1")].map Ex.nHit ++
      Ex.nHit (.start Ex.gIf (Ex.kv c!"name" c!"Lo1")) :: [Spec.NEv.line Ex.gIf (Ex.kv c!"mtu" c!"1")].map Ex.nHit ++
      Ex.nHit (.line (Ex.gIf ++ [c!"vlans"]) (Ex.kv c!"descr" c!"lost")) :: []).map ([·])] (.dict [])).map (·.results) =
    (makeResults false Ex.gf0 [] [] [] [([Spec.NEv.start Ex.gIf (Ex.kv c!"name" c!"Lo0"), .start Ex.gVl (Ex.kv c!"id" c!"1")].map Ex.nHit ++
      Ex.nHit (.start Ex.gIf (Ex.kv c!"name" c!"Lo1")) :: [Spec.NEv.line Ex.gIf (Ex.kv c!"mtu" c!"1")].map Ex.nHit ++
      []).map ([·])] (.dict [])).map (·.results) := by
  refine C85_line_before_start false Ex.gf0 [] [] Ex.nGroups Ex.nId Ex.nDflt Ex.nGroups_ok Ex.gIf c!"vlans" _ _ _ _ _ _ _ _ _ []
    (Ex.all2_map _ _ _ ?_) (Ex.nHit_tells _ (by decide) (Ex.plain_kv _ _ (by decide))) (Ex.all2_map _ _ _ ?_)
    (Ex.nHit_tells _ (by decide) (Ex.plain_kv _ _ (by decide))) .nil ?_ ?_
  · intro e he
    simp only [List.mem_cons, List.not_mem_nil, or_false] at he
    rcases he with rfl | rfl <;> exact Ex.nHit_tells _ (by decide) (Ex.plain_kv _ _ (by decide))
  · intro e he
    simp only [List.mem_singleton] at he
    subst he
    exact Ex.nHit_tells _ (by decide) (Ex.plain_kv _ _ (by decide))
  · intro e he
    simp only [List.mem_cons, List.not_mem_nil, or_false] at he
    rcases he with rfl | rfl <;> trivial
  · intro e he
    simp only [List.mem_singleton] at he
    exact ⟨_, he⟩

/-! ## C86 -/

/-- the functions one after the other, each on the result of the one before; `none` is a rejected record -/
def inOrder (F : FnCall → Val → Option Val) : List FnCall → Val → Option Val
  | [], v => some v
  | f :: fs, v => (F f v).bind (inOrder F fs)

/-- C86. The functions of a group run in the order written, each on what the one before made of the record (with the defaults filled in);
what the last one gives is saved at the path of the group; a record rejected by one of them is not saved and the functions after it do not
run. For functions that work on the record only. -/
theorem C86_functions_in_order (toInt : Bool) (gf : GroupFns) (F : FnCall → Val → Option Val)
    (hF : ∀ f ms v, gf f ms v = .ok (match F f v with
      | some v' => (ms, v', none)
      | none => (ms, v, some false)))
    (ms : MS) (hm : ms.record.merge = false) (hs : StaticPath ms.record.path) (hne : ms.record.path ≠ []) :
    flush toInt gf ms =
      match inOrder F ms.record.functions (.dict (fill ms.record.result ms.record.defaults)) with
      | some v => (save toInt false v (parsePath ms.record.path) ms.results).map (fun r => { ms with results := r })
      | none => .ok ms := by
  have hrun : ∀ (fs : List FnCall) (v : Val), runFns gf fs ms v = .ok (ms, inOrder F fs v) := by
    intro fs
    induction fs with
    | nil => intro v; rfl
    | cons f fs ih =>
      intro v
      rw [runFns, hF]
      cases hf : F f v with
      | none => simp [inOrder, hf, pure_ok, ok_bind]
      | some v' => simp [inOrder, hf, ok_bind, ih]
  unfold flush processgrp preMerge
  simp only [hm, Bool.false_eq_true, if_false, pure_ok, ok_bind]
  rw [hrun]
  simp only [ok_bind]
  have : addDefaults ms.record.result ms.record.defaults = fill ms.record.result ms.record.defaults := rfl
  rw [this]
  cases hio : inOrder F ms.record.functions (.dict (fill ms.record.result ms.record.defaults)) with
  | none => rfl
  | some v =>
    simp only [postPath]
    rw [formPath_static _ _ hs]
    cases hp : parsePath ms.record.path with
    | nil => simp [parsePath] at hp; exact absurd hp hne
    | cons p ps =>
      simp only [ok_bind, pure_ok, hm]
      cases save toInt false v (p :: ps) ms.results with
      | error e => rfl
      | ok r => rfl

/-- a function that counts its runs in the record and one that rejects records without the variable `name` -/
def Ex.countF (f : FnCall) (v : Val) : Option Val :=
  match v with
  | .dict d => if f.name = c!"need" then (if Dict.has d (.s c!"name") then some v else none) else some (.dict (Dict.set d (.s f.name) (.int d.length)))
  | v => some v
/-- as group functions -/
def Ex.countGf : GroupFns := fun f ms v => .ok (match Ex.countF f v with
  | some v' => (ms, v', none)
  | none => (ms, v, some false))

/-- Two functions: the second one sees the result of the first one. -/
example : (flush false Ex.countGf { Ex.ms1 with record := { Ex.ms1.record with functions := [⟨c!"x", [], []⟩, ⟨c!"need", [], []⟩, ⟨c!"y", [], []⟩] } }).map (·.results) =
    .ok (.dict [(.s c!"interfaces", .list [.dict [(.s c!"name", .str c!"Lo0"), (.s c!"mtu", .str c!"1500"), (.s c!"x", .int 2), (.s c!"y", .int 3)]])]) := by
  rw [C86_functions_in_order false Ex.countGf Ex.countF (fun _ _ _ => rfl) _ rfl (by unfold StaticPath; decide) (by decide)]
  decide +kernel

/-! ## C17: the group of the current record -/

/-- C17. What "the group of the current record" is: after a valid start of a group, at a position without other matches, it is this group,
as long as lines of the group follow. -/
theorem C17_current_group (toInt : Bool) (gf : GroupFns) (ms ms' : MS) (h : Hit) (lines : List Hit) (d : Dict Key Val) (hd : h.2 = some d)
    (ha : h.1.action = .start ∨ h.1.action = .startempty) (hpar : ∀ p, h.1.parent = some p → p ∉ ms.ended)
    (hl : ∀ x ∈ lines, x.1.action = .add ∧ x.2 ≠ none ∧ x.1.path = h.1.path ∧ x.1.gid = h.1.gid ∧ x.1.parent = h.1.parent)
    (hr : steps toInt gf ms ((h :: lines).map ([·])) = .ok ms') : ms'.record.grpId = some h.1.gid := by
  simp only [List.map_cons, steps, step_single, bind_ok_iff] at hr
  obtain ⟨m1, e1, e2⟩ := hr
  have hpe : parentEnded ms h.1 = false := by
    unfold parentEnded
    cases hp : h.1.parent with
    | none => rfl
    | some p => simpa using hpar p hp
  have hst : ∃ m0 dd, doStart toInt gf h.1 dd m0 = .ok m1 := by
    rw [applyHit, hd] at e1
    simp only [hpe, Bool.false_eq_true, if_false] at e1
    have hs : h.1.action.isStart = true := by rcases ha with ha | ha <;> rw [ha] <;> rfl
    have hact : ∀ m, ∃ dd, doAction toInt gf h.1 d m = doStart toInt gf h.1 dd m := by
      intro m
      rcases ha with ha | ha
      · exact ⟨d, by simp [doAction, ha]⟩
      · exact ⟨[], by simp [doAction, ha]⟩
    split at e1
    · obtain ⟨dd, hdd⟩ := hact { ms with ended := ms.ended.filter (fun g => g != h.1.gid) }
      rw [hdd] at e1
      exact ⟨_, dd, e1⟩
    · obtain ⟨dd, hdd⟩ := hact ms
      rw [hdd] at e1
      exact ⟨_, dd, e1⟩
  obtain ⟨m0, dd, hst⟩ := hst
  have h1 : m1.record.grpId = some h.1.gid ∧ m1.record.path = h.1.path := by
    simp only [doStart, bind_ok_iff, pure_ok, Except.ok.injEq] at hst
    obtain ⟨m2, _, e⟩ := hst
    rw [← e]
    exact ⟨rfl, rfl⟩
  have : ∀ (lines : List Hit) (m : MS), (∀ x ∈ lines, x.1.action = .add ∧ x.2 ≠ none ∧ x.1.path = h.1.path ∧ x.1.gid = h.1.gid ∧
      x.1.parent = h.1.parent) → m.record.grpId = some h.1.gid → m.record.path = h.1.path → steps toInt gf m (lines.map ([·])) = .ok ms' →
      ms'.record.grpId = some h.1.gid := by
    intro lines
    induction lines with
    | nil => intro m _ hg _ e; simp only [List.map_nil, steps, pure_ok, Except.ok.injEq] at e; rw [← e]; exact hg
    | cons x lines ih =>
      intro m hl hg hp e
      simp only [List.map_cons, steps, step_single, bind_ok_iff] at e
      obtain ⟨m2, e1, e2⟩ := e
      obtain ⟨hx1, hx2, hx3, hx4, hx5⟩ := hl x (by simp)
      obtain ⟨dx, hdx⟩ : ∃ dx, x.2 = some dx := by
        cases hh : x.2 with
        | none => exact absurd hh hx2
        | some y => exact ⟨y, rfl⟩
      have hm2 : m2.record.grpId = some h.1.gid ∧ m2.record.path = h.1.path := by
        rw [applyHit, hdx] at e1
        simp only at e1
        split at e1
        · simp only [pure_ok, Except.ok.injEq] at e1; rw [← e1]; exact ⟨hg, hp⟩
        · split at e1
          · rw [hx1] at e1
            simp only [Action.isStart, Bool.false_eq_true, if_false, pure_ok, Except.ok.injEq] at e1
            rw [← e1]; exact ⟨hg, hp⟩
          · simp only [doAction, hx1, doAdd, hp, hx3, if_true, pure_ok, Except.ok.injEq] at e1
            rw [← e1]; exact ⟨hg, rfl⟩
      exact ih m2 (fun y hy => hl y (by simp [hy])) hm2.1 hm2.2 e2
  exact this lines m1 hl h1.1 h1.2 e2

example (ms' : MS) (h : steps false Ex.gf0 Ex.ms1 (((Ex.reStart, some (Ex.kv c!"name" c!"Lo1")) :: [(Ex.reAdd, some (Ex.kv c!"descr" c!"a"))]).map ([·])) = .ok ms') :
    ms'.record.grpId = some Ex.gI :=
  C17_current_group false Ex.gf0 Ex.ms1 ms' _ _ (Ex.kv c!"name" c!"Lo1") rfl (Or.inl rfl) (by intro p hp; cases hp)
    (by intro x hx; rw [List.mem_singleton] at hx; subst hx; exact ⟨rfl, by simp, rfl, rfl, rfl⟩) h

end Props
