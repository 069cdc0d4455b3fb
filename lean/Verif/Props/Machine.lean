import Verif.Proofs.Machine
import Verif.Proofs.Save3
import Verif.Props.Save
/-!
# C10 - C19: how matches become records

A match (`Hit`) is a template line (`RE`: group, path, defaults, functions, action) with the values matched, `none` if a
check rejected it. `makeResults` is the whole machine for one text, `steps` its loop over text positions (each position
has the list of matches found there).
-/

namespace Props
open Py Spec TTP

/-! Concrete groups used by the examples. -/
namespace Ex

/-- `interfaces*`, top group -/
def gI : GId := (c!"interfaces*", 0)
/-- start line of the group -/
def reStart : RE := ⟨gI, none, [c!"interfaces*"], [(.s c!"mtu", .str c!"1500")], [], .start, false, []⟩
/-- ordinary line of the group -/
def reAdd : RE := { reStart with action := .add }
/-- `_end_` line of the group -/
def reEnd : RE := { reStart with action := .end_ }
/-- line with joinmatches of the group -/
def reJoin : RE := { reStart with action := .join, vfuncs := [(c!"vlans", [⟨c!"joinmatches", [.str c!","], []⟩])] }
/-- no group functions -/
def gf0 : GroupFns := fun _ ms v => pure (ms, v, none)
/-- every group function rejects -/
def gfNo : GroupFns := fun _ ms v => pure (ms, v, some false)
/-- one variable -/
def kv (k v : Str) : Dict Key Val := [(.s k, .str v)]
/-- state with a current record -/
def ms1 : MS := ⟨.dict [], [gI], [], ⟨kv c!"name" c!"Lo0", [c!"interfaces*"], [], [(.s c!"mtu", .str c!"1500")], some gI, false⟩, [], [], []⟩
/-- matches: a record, a rejected start with a line, a record -/
def hits : List Hit := [(reStart, some (kv c!"name" c!"Lo0")), (reAdd, some (kv c!"descr" c!"a")),
  (reStart, none), (reAdd, some (kv c!"descr" c!"lost")),
  (reStart, some (kv c!"name" c!"Lo1")), (reAdd, some (kv c!"mtu" c!"9000")), (reAdd, some (kv c!"mtu" c!"1"))]

theorem hits_of : ∀ h ∈ hits, OfGroup gI [c!"interfaces*"] [(.s c!"mtu", .str c!"1500")] h := by
  intro h hh
  have wf : ∀ k v, Dict.WF (kv k v) := fun k v => by simp [kv, Dict.WF, Dict.keys]
  simp only [hits, List.mem_cons, List.mem_nil_iff, or_false] at hh
  rcases hh with rfl | rfl | rfl | rfl | rfl | rfl | rfl
  · exact ⟨rfl, rfl, rfl, rfl, rfl, Or.inl rfl, by intro d e; cases e; exact wf _ _⟩
  · exact ⟨rfl, rfl, rfl, rfl, rfl, Or.inr ⟨rfl, by decide⟩, by intro d e; cases e; exact wf _ _⟩
  · exact ⟨rfl, rfl, rfl, rfl, rfl, Or.inl rfl, by intro d e; cases e⟩
  · exact ⟨rfl, rfl, rfl, rfl, rfl, Or.inr ⟨rfl, by decide⟩, by intro d e; cases e; exact wf _ _⟩
  · exact ⟨rfl, rfl, rfl, rfl, rfl, Or.inl rfl, by intro d e; cases e; exact wf _ _⟩
  · exact ⟨rfl, rfl, rfl, rfl, rfl, Or.inr ⟨rfl, by decide⟩, by intro d e; cases e; exact wf _ _⟩
  · exact ⟨rfl, rfl, rfl, rfl, rfl, Or.inr ⟨rfl, by decide⟩, by intro d e; cases e; exact wf _ _⟩

end Ex

/-! ## C10 -/

/-- C10. For a top group without children, functions, `_end_` and joined lines, and a path without placeholders: the
results are what was there (with the template variables saved) with one record saved for each valid start, in order.
`segments` cuts the matches; `IsRecordOf` says that a record has, for every key, the value of the start line, else of
the first following line that has the key, else the default. -/
theorem C10_flat_group (toInt : Bool) (gf : GroupFns) (vtr : Dict Str (List Str)) (vars gvars : Dict Str Val)
    (g : GId) (path : List Str) (hs : StaticPath path) (hne : path ≠ []) (dflt : Dict Key Val)
    (hits : List Hit) (hof : ∀ h ∈ hits, OfGroup g path dflt h) (R0 : Val) :
    ∃ recs, All2 (IsRecordOf dflt) (segments (hits.map evOf)) recs ∧ (∀ r ∈ recs, Dict.WF r) ∧
      (makeResults toInt gf vtr vars gvars [hits.map ([·])] R0).map (·.results) =
        (saveVars toInt vtr ⟨R0, [], [], Record.empty, [], vars, gvars⟩ >>= fun m =>
          saveMany toInt (parsePath path) recs m.results) := by
  have hwf : ∀ ev ∈ hits.map evOf, match ev with
      | .start d => Dict.WF d
      | .line d => Dict.WF d
      | .badStart => True := by
    intro ev hev
    obtain ⟨h, hh, rfl⟩ := List.mem_map.1 hev
    unfold evOf
    cases hd : h.2 with
    | none => trivial
    | some d =>
      have := (hof h hh).wf d hd
      cases h.1.action <;> simp [Dict.WF, Dict.keys] <;> exact this
  refine ⟨recsOf dflt none false (hits.map evOf), (recsOf_segments dflt _ hwf).1 false,
    recsOf_WF dflt none false _ (by intro r e; cases e) hwf, ?_⟩
  unfold makeResults
  simp only [List.isEmpty_cons, Bool.false_eq_true, if_false, List.flatten_cons, List.flatten_nil, List.append_nil]
  cases hsv : saveVars toInt vtr ⟨R0, [], [], Record.empty, [], vars, gvars⟩ with
  | error e => rfl
  | ok m =>
    simp only [ok_bind]
    have hm : m.record = Record.empty ∧ m.started = [] ∧ m.ended = [] := by
      have all : ∀ (l : List (Str × List Str)) (a b : MS), saveVarsAll toInt a l = .ok b →
          b.started = a.started ∧ b.ended = a.ended := by
        intro l
        induction l with
        | nil => intro a b e; simp only [saveVarsAll, pure_ok, Except.ok.injEq] at e; rw [← e]; exact ⟨rfl, rfl⟩
        | cons x l ih =>
          intro a b e
          obtain ⟨p, names⟩ := x
          simp only [saveVarsAll, bind_ok_iff] at e
          obtain ⟨c, e1, e2⟩ := e
          have h2 := ih c b e2
          have h1 : c.started = a.started ∧ c.ended = a.ended := by
            unfold saveVarsAt at e1
            split at e1
            · simp only [pure_ok, Except.ok.injEq] at e1; rw [← e1]; exact ⟨rfl, rfl⟩
            · simp only [bind_ok_iff] at e1
              obtain ⟨⟨c1, r1, p1⟩, _, e1⟩ := e1
              simp only at e1
              split at e1
              · simp only [bind_ok_iff] at e1
                obtain ⟨r, _, e1⟩ := e1
                simp only [pure_ok, Except.ok.injEq] at e1; rw [← e1]; exact ⟨rfl, rfl⟩
              · simp only [pure_ok, Except.ok.injEq] at e1; rw [← e1]; exact ⟨rfl, rfl⟩
          exact ⟨h2.1.trans h1.1, h2.2.trans h1.2⟩
      simp only [saveVars, bind_ok_iff] at hsv
      obtain ⟨b, e1, e2⟩ := hsv
      simp only [pure_ok, Except.ok.injEq] at e2
      have := all _ _ _ e1
      rw [← e2]; exact ⟨rfl, this.1, this.2⟩
    rw [flat_sim toInt gf g path hs hne dflt hits hof m none false ⟨hm.1, fun _ => hm.2.1, by simp [hm.2.2]⟩]
    rfl

/-- C10 with C01: the results of a group with a list path, from an empty start, without template variables to save:
exactly the list of the non-empty records. -/
theorem C10_flat_group_list (toInt : Bool) (gf : GroupFns) (vars gvars : Dict Str Val)
    (g : GId) (path : List Str) (hs : StaticPath path) (dflt : Dict Key Val)
    (hnull : ∀ p ∈ parsePath path, p.name ≠ c!"_")
    (last : PItem) (hlast : (parsePath path).getLast? = some last) (hstar : last.stars = 1)
    (hits : List Hit) (hof : ∀ h ∈ hits, OfGroup g path dflt h) (hsome : segments (hits.map evOf) ≠ []) :
    ∃ recs ms, All2 (IsRecordOf dflt) (segments (hits.map evOf)) recs ∧
      makeResults toInt gf [] vars gvars [hits.map ([·])] (.dict []) = .ok ms ∧
      At (pathKeys toInt (parsePath path)) ms.results (.list ((recs.filter (fun r => !r.isEmpty)).map .dict)) := by
  simp only [pathKeys_eq] at *
  have hne : path ≠ [] := by intro e; subst e; simp [parsePath] at hlast
  obtain ⟨recs, h1, _, h2⟩ := C10_flat_group toInt gf [] vars gvars g path hs hne dflt hits hof (.dict [])
  have hrne : recs ≠ [] := by
    intro e; subst e
    cases hseg : segments (hits.map evOf) with
    | nil => exact hsome hseg
    | cons a as => rw [hseg] at h1; cases h1
  have hab : Absent (pkeys toInt (parsePath path)) (.dict []) := by
    cases hp : parsePath path with
    | nil => rw [hp] at hlast; cases hlast
    | cons a as => exact Absent.missing rfl
  obtain ⟨R', h3, h4⟩ := C01_list_path_accumulates toInt (parsePath path) hnull last hlast hstar (.dict []) []
    (Or.inr ⟨by rw [pathKeys_eq]; exact hab, rfl⟩) recs hrne
  rw [pathKeys_eq] at h4
  simp only [saveVars, sorted, saveVarsAll, List.foldr_nil, pure_ok, ok_bind, h3] at h2
  cases hm : makeResults toInt gf [] vars gvars [hits.map ([·])] (.dict []) with
  | error e => rw [hm] at h2; cases h2
  | ok ms =>
    rw [hm] at h2
    simp only [Except.map, Except.ok.injEq] at h2
    refine ⟨recs, ms, h1, rfl, ?_⟩
    rw [h2]; simpa using h4

/-- The example: a record, a rejected start whose line is lost, a second record with a value instead of the default. -/
example : (makeResults false Ex.gf0 [] [] [] [Ex.hits.map ([·])] (.dict [])).map (·.results) =
    .ok (.dict [(.s c!"interfaces", .list [
      .dict [(.s c!"descr", .str c!"a"), (.s c!"name", .str c!"Lo0"), (.s c!"mtu", .str c!"1500")],
      .dict [(.s c!"mtu", .str c!"9000"), (.s c!"name", .str c!"Lo1")]])]) := by decide +kernel

example : ∃ recs ms, All2 (IsRecordOf [(.s c!"mtu", .str c!"1500")]) (segments (Ex.hits.map evOf)) recs ∧
      makeResults false Ex.gf0 [] [] [] [Ex.hits.map ([·])] (.dict []) = .ok ms ∧
      At [.s c!"interfaces"] ms.results (.list ((recs.filter (fun r => !r.isEmpty)).map .dict)) :=
  C10_flat_group_list false Ex.gf0 [] [] Ex.gI [c!"interfaces*"] (by unfold StaticPath; decide) _ (by decide)
    ⟨c!"interfaces", 1⟩ rfl rfl Ex.hits Ex.hits_of (by intro h; cases h)

/-! ## C11 -/

/-- C11. Any number of ordinary lines added to the current record: every key has the value of the record, else of the
first line that has it. In particular a captured value never changes. -/
theorem C11_first_value_is_kept (toInt : Bool) (gf : GroupFns) (ms : MS) (hits : List (RE × Dict Key Val))
    (hadd : ∀ h ∈ hits, h.1.action = .add ∧ h.1.path = ms.record.path ∧ h.1.gid ∉ ms.ended ∧
      (∀ p, h.1.parent = some p → p ∉ ms.ended) ∧ Dict.WF h.2)
    (hwf : Dict.WF ms.record.result) :
    ∃ ms', steps toInt gf ms (hits.map (fun h => [(h.1, some h.2)])) = .ok ms' ∧
      ms' = { ms with record := { ms.record with result := ms'.record.result } } ∧
      ∀ k, Dict.get? ms'.record.result k =
        (ms.record.result :: hits.map (·.2)).findSome? (fun d => Dict.get? d k) := by
  induction hits generalizing ms with
  | nil =>
    refine ⟨ms, rfl, rfl, fun k => ?_⟩
    simp only [List.map_nil, List.findSome?]
    cases Dict.get? ms.record.result k <;> rfl
  | cons h hits ih =>
    obtain ⟨h1, h2, h3, h4, h5⟩ := hadd h (by simp)
    have hp : parentEnded ms h.1 = false := by
      unfold parentEnded
      cases hpp : h.1.parent with
      | none => rfl
      | some p => simpa using h4 p hpp
    have e : step toInt gf ms [(h.1, some h.2)] =
        .ok { ms with record := { ms.record with result := Dict.update h.2 ms.record.result } } := by
      rw [step_single]
      simp [applyHit, hp, h3, doAction, h1, doAdd, h2]
    obtain ⟨ms', e1, e2, e3⟩ := ih { ms with record := { ms.record with result := Dict.update h.2 ms.record.result } }
      (fun x hx => hadd x (by simp [hx])) (Dict.WF_update _ _ h5)
    refine ⟨ms', ?_, e2, fun k => ?_⟩
    · simp only [List.map_cons, steps, e, ok_bind]; exact e1
    · rw [e3 k]
      simp only [List.map_cons, List.findSome?]
      rw [Dict.get?_update _ _ hwf]
      cases Dict.get? ms.record.result k <;> cases Dict.get? h.2 k <;> rfl

example : ∃ ms', steps false Ex.gf0 Ex.ms1 ([(Ex.reAdd, Ex.kv c!"name" c!"other"), (Ex.reAdd, Ex.kv c!"descr" c!"d")].map
      (fun h => [(h.1, some h.2)])) = .ok ms' ∧ Dict.get? ms'.record.result (.s c!"name") = some (.str c!"Lo0") := by
  obtain ⟨ms', h1, _, h3⟩ := C11_first_value_is_kept false Ex.gf0 Ex.ms1
    [(Ex.reAdd, Ex.kv c!"name" c!"other"), (Ex.reAdd, Ex.kv c!"descr" c!"d")]
    (by
      intro h hh
      simp only [List.mem_cons, List.mem_nil_iff, or_false] at hh
      rcases hh with rfl | rfl
      · exact ⟨rfl, rfl, by decide, by (intro p e; cases e), by simp [Ex.kv, Dict.WF, Dict.keys]⟩
      · exact ⟨rfl, rfl, by decide, by (intro p e; cases e), by simp [Ex.kv, Dict.WF, Dict.keys]⟩)
    (by simp [Ex.ms1, Ex.kv, Dict.WF, Dict.keys])
  exact ⟨ms', h1, by rw [h3]; rfl⟩

/-! ## C12 -/

/-- C12. The record that is saved when the next group starts or the text ends has the matched value of every variable,
the default if there was no match, and nothing else. -/
theorem C12_defaults_fill_the_rest (toInt : Bool) (gf : GroupFns) (ms : MS) (hf : ms.record.functions = [])
    (hm : ms.record.merge = false) (hs : StaticPath ms.record.path) (hne : ms.record.path ≠ []) :
    ∃ D : Dict Key Val,
      (∀ k, Dict.get? D k = match Dict.get? ms.record.result k with
        | some v => some v
        | none => Dict.get? ms.record.defaults k) ∧
      (flush toInt gf ms).map (·.results) = save toInt false (.dict D) (parsePath ms.record.path) ms.results := by
  refine ⟨addDefaults ms.record.result ms.record.defaults, fun k => ?_, ?_⟩
  · rw [addDefaults_get]
    cases Dict.get? ms.record.result k <;> rfl
  · rw [flush_simple toInt gf ms hf hm hs hne]
    cases save toInt false (Val.dict (addDefaults ms.record.result ms.record.defaults)) (parsePath ms.record.path) ms.results <;> rfl

/-- C12 for the defaults of a group: a valid start match begins a record that holds the values of the start line and
the defaults of its group; a `_start_` line begins a record without values. -/
theorem C12_start_takes_group_defaults (toInt : Bool) (gf : GroupFns) (ms ms' : MS) (re : RE) (d : Dict Key Val)
    (hst : re.action.isStart = true) (hp : ∀ p, re.parent = some p → p ∉ ms.ended)
    (h : step toInt gf ms [(re, some d)] = .ok ms') :
    ms'.record.defaults = re.runs ∧ ms'.record.path = re.path ∧ ms'.record.functions = re.funcs ∧
      ms'.record.result = (if re.action = .start then d else []) ∧ ms'.record.grpId = some re.gid ∧
      ms'.record.merge = false := by
  have hpe : parentEnded ms re = false := by
    unfold parentEnded
    cases hpp : re.parent with
    | none => rfl
    | some p => simpa using hp p hpp
  rw [step_single] at h
  have main : ∀ m : MS, doAction toInt gf re d m = .ok ms' →
      ms'.record.defaults = re.runs ∧ ms'.record.path = re.path ∧ ms'.record.functions = re.funcs ∧
      ms'.record.result = (if re.action = .start then d else []) ∧ ms'.record.grpId = some re.gid ∧
      ms'.record.merge = false := by
    intro m e
    have st : ∀ d0, doStart toInt gf re d0 m = .ok ms' → ms'.record = ⟨d0, re.path, re.funcs, re.runs, some re.gid, false⟩ := by
      intro d0 e
      simp only [doStart, bind_ok_iff, pure_ok, Except.ok.injEq] at e
      obtain ⟨m1, _, e⟩ := e
      rw [← e]
    cases ha : re.action with
    | start => simp only [doAction, ha] at e; simp [st _ e]
    | startempty => simp only [doAction, ha] at e; simp [st _ e]
    | _ => simp [ha, Action.isStart] at hst
  simp only [applyHit, hpe, Bool.false_eq_true, if_false, hst, if_true] at h
  split at h
  · exact main _ h
  · exact main _ h

example : ∃ ms', step false Ex.gf0 Ex.ms1 [(Ex.reStart, some (Ex.kv c!"name" c!"Lo1"))] = .ok ms' ∧
    ms'.record.result = Ex.kv c!"name" c!"Lo1" := by
  refine ⟨_, rfl, ?_⟩
  exact (C12_start_takes_group_defaults false Ex.gf0 Ex.ms1 _ Ex.reStart _ rfl (by intro p e; cases e) rfl).2.2.2.1

example : (flush false Ex.gf0 Ex.ms1).map (·.results) = .ok (.dict [(.s c!"interfaces", .list [
    .dict [(.s c!"name", .str c!"Lo0"), (.s c!"mtu", .str c!"1500")]])]) := by decide +kernel

example : ∃ D : Dict Key Val, (∀ k, Dict.get? D k = match Dict.get? Ex.ms1.record.result k with
        | some v => some v
        | none => Dict.get? Ex.ms1.record.defaults k) ∧
      (flush false Ex.gf0 Ex.ms1).map (·.results) = save false false (.dict D) [⟨c!"interfaces", 1⟩] (.dict []) :=
  C12_defaults_fill_the_rest false Ex.gf0 Ex.ms1 rfl rfl (by unfold StaticPath; decide) (by decide)

/-! ## C13 -/

/-- While group `g` is ended, positions that have only non-start matches of `g` can be removed from the text: the
state of the machine, and so the results, are the same - as long as no valid start match of `g` comes. -/
theorem C13_ended_group_is_silent (toInt : Bool) (gf : GroupFns) (hk : KeepsEnded gf) (g : GId) (ms : MS)
    (hg : g ∈ ms.ended) (text : List (List Hit)) (hpos : ∀ hs ∈ text, hs ≠ [])
    (hno : ∀ hs ∈ text, ∀ h ∈ hs, ValidStart g h = false) :
    steps toInt gf ms text = steps toInt gf ms (text.filter (fun hs => !hs.all (Quiet g))) := by
  induction text generalizing ms with
  | nil => rfl
  | cons hs text ih =>
    have ih' := fun m hm => ih m hm (fun x hx => hpos x (by simp [hx])) (fun x hx => hno x (by simp [hx]))
    obtain ⟨h, hsel⟩ := select_some ms hs (hpos hs (by simp))
    have hmem := (select_class ms hs h hsel).1
    by_cases hq : hs.all (Quiet g) = true
    · rw [List.filter_cons_of_neg (by simp [hq])]
      have : step toInt gf ms hs = .ok ms := by
        rw [step, hsel]
        exact applyHit_quiet toInt gf ms h g hg (List.all_eq_true.1 hq h hmem)
      simp only [steps, this, ok_bind]
      exact ih' ms hg
    · rw [List.filter_cons_of_pos (by simpa using hq)]
      simp only [steps]
      cases hst : step toInt gf ms hs with
      | error e => rfl
      | ok m =>
        simp only [ok_bind]
        refine ih' m ?_
        rw [step, hsel] at hst
        exact applyHit_ended toInt gf hk ms m h g hg (hno hs (by simp) h hmem) hst

/-- C13. An `_end_` line of the group of the current record (or of a group that is not the last started one) ends the
group: nothing else changes, and from there on non-start lines of the group have no effect until it starts again. -/
theorem C13_end_silences_group (toInt : Bool) (gf : GroupFns) (hk : KeepsEnded gf) (ms : MS) (re : RE) (d : Dict Key Val)
    (hend : re.action = .end_) (hp : ∀ p, re.parent = some p → p ∉ ms.ended) (hst : ms.started ≠ [])
    (hcur : ms.record.path = re.path ∨ ms.started.head? ≠ some re.gid)
    (text : List (List Hit)) (hpos : ∀ hs ∈ text, hs ≠ [])
    (hno : ∀ hs ∈ text, ∀ h ∈ hs, ValidStart re.gid h = false) :
    (∃ m, step toInt gf ms [(re, some d)] = .ok m ∧ re.gid ∈ m.ended ∧ m.record = ms.record ∧ m.results = ms.results ∧
      m.started = ms.started) ∧
    steps toInt gf ms ([(re, some d)] :: text) =
      steps toInt gf ms ([(re, some d)] :: text.filter (fun hs => !hs.all (Quiet re.gid))) := by
  have hpe : parentEnded ms re = false := by
    unfold parentEnded
    cases hpp : re.parent with
    | none => rfl
    | some p => simpa using hp p hpp
  have hstep : ∃ m, step toInt gf ms [(re, some d)] = .ok m ∧ re.gid ∈ m.ended ∧ m.record = ms.record ∧
      m.results = ms.results ∧ m.started = ms.started := by
    rw [step_single]
    by_cases hin : re.gid ∈ ms.ended
    · exact ⟨ms, by simp [applyHit, hpe, hin, hend, Action.isStart], hin, rfl, rfl, rfl⟩
    · refine ⟨{ ms with ended := addEnded ms.ended re.gid }, ?_, (mem_addEnded _ _ _).2 (Or.inl rfl), rfl, rfl, rfl⟩
      have : doEnd re ms = .ok { ms with ended := addEnded ms.ended re.gid } := by
        unfold doEnd
        split
        · rename_i hne
          rcases hcur with hc | hc
          · exact absurd hc hne
          · cases hs : ms.started with
            | nil => exact absurd hs hst
            | cons t ts =>
              rw [hs] at hc
              simp only [List.head?_cons, ne_eq, Option.some.injEq] at hc
              simp [Ne.symm hc]
        · rfl
      simp only [applyHit, hpe, hin, doAction, hend]
      exact this
  refine ⟨hstep, ?_⟩
  obtain ⟨m, h1, h2, -⟩ := hstep
  simp only [steps, h1, ok_bind]
  exact C13_ended_group_is_silent toInt gf hk re.gid m h2 text hpos hno

theorem Ex.keeps0 : KeepsEnded Ex.gf0 := by
  intro f ms v ms' v' fl h
  simp only [Ex.gf0, pure_ok, Except.ok.injEq, Prod.mk.injEq] at h
  rw [← h.1]

example : steps false Ex.gf0 Ex.ms1 [[(Ex.reEnd, some [])], [(Ex.reAdd, some (Ex.kv c!"descr" c!"late"))]] =
    steps false Ex.gf0 Ex.ms1 [[(Ex.reEnd, some [])]] :=
  (C13_end_silences_group false Ex.gf0 Ex.keeps0 Ex.ms1 Ex.reEnd [] rfl (by intro p e; cases e) (by decide) (Or.inl rfl)
    [[(Ex.reAdd, some (Ex.kv c!"descr" c!"late"))]] (by decide) (by decide)).2

/-! ## C14 -/

/-- C14. A start match that a check rejected changes neither the current record nor the results; the non-start lines of
that group that follow have no effect until a valid start of the group. -/
theorem C14_rejected_start_drops_lines (toInt : Bool) (gf : GroupFns) (hk : KeepsEnded gf) (ms : MS) (re : RE)
    (text : List (List Hit)) (hpos : ∀ hs ∈ text, hs ≠ [])
    (hno : ∀ hs ∈ text, ∀ h ∈ hs, ValidStart re.gid h = false) :
    (∃ m, step toInt gf ms [(re, none)] = .ok m ∧ m.record = ms.record ∧ m.results = ms.results ∧ m.started = ms.started) ∧
    steps toInt gf ms ([(re, none)] :: text) =
      steps toInt gf ms ([(re, none)] :: text.filter (fun hs => !hs.all (Quiet re.gid))) := by
  have h1 : step toInt gf ms [(re, none)] = .ok { ms with ended := addEnded ms.ended re.gid } := by
    rw [step_single]; rfl
  refine ⟨⟨_, h1, rfl, rfl, rfl⟩, ?_⟩
  simp only [steps, h1, ok_bind]
  exact C13_ended_group_is_silent toInt gf hk re.gid _ ((mem_addEnded _ _ _).2 (Or.inl rfl)) text hpos hno

example : steps false Ex.gf0 Ex.ms1 [[(Ex.reStart, none)], [(Ex.reAdd, some (Ex.kv c!"descr" c!"late"))]] =
    steps false Ex.gf0 Ex.ms1 [[(Ex.reStart, none)]] :=
  (C14_rejected_start_drops_lines false Ex.gf0 Ex.keeps0 Ex.ms1 Ex.reStart
    [[(Ex.reAdd, some (Ex.kv c!"descr" c!"late"))]] (by decide) (by decide)).2

/-! ## C15 -/

/-- C15. A record that has value `old` (or none) for a joined variable `k` gets any number of further matches of lines
with `k`: the value is all of the texts joined in order. `j` is the join character the functions of the variable ask for
(`JoinsBy`); no other variable of these lines asks for one. -/
theorem C15_joined_in_order (toInt : Bool) (gf : GroupFns) (k j : Str) (ms ms' : MS) (old : Option Str)
    (hold : Dict.get? ms.record.result (.s k) = old.map .str)
    (hits : List (RE × Dict Key Val)) (texts : List Str)
    (hact : ∀ h ∈ hits, h.1.action = .join ∧ h.1.path = ms.record.path ∧ h.1.gid ∉ ms.ended ∧
      (∀ p, h.1.parent = some p → p ∉ ms.ended) ∧ Dict.WF h.2)
    (hfun : ∀ h ∈ hits, (∃ fns, Dict.get? h.1.vfuncs k = some fns ∧ JoinsBy fns j) ∧
      ∀ n fns, n ≠ k → Key.s n ∈ Dict.keys h.2 → Dict.get? h.1.vfuncs n = some fns → ∀ f ∈ fns, f.name ≠ c!"joinmatches")
    (htext : All2 (fun h t => Dict.get? h.2 (.s k) = some (.str t)) hits texts)
    (hsome : old.toList ++ texts ≠ [])
    (h : steps toInt gf ms (hits.map (fun h => [(h.1, some h.2)])) = .ok ms') :
    Dict.get? ms'.record.result (.s k) = some (.str (join j (old.toList ++ texts))) := by
  induction hits generalizing ms texts old with
  | nil =>
    cases htext
    simp only [List.map_nil, steps, pure_ok, Except.ok.injEq] at h
    subst h
    rw [hold]
    cases old with
    | none => simp at hsome
    | some o => rfl
  | cons x hits ih =>
    cases htext with
    | @cons _ t _ texts' ht htext =>
    obtain ⟨h1, h2, h3, h4, h5⟩ := hact x (by simp)
    obtain ⟨⟨fns, hf1, hf2⟩, hf3⟩ := hfun x (by simp)
    have hp : parentEnded ms x.1 = false := by
      unfold parentEnded
      cases hpp : x.1.parent with
      | none => rfl
      | some p => simpa using h4 p hpp
    have hkeys : Key.s k ∈ Dict.keys x.2 := by
      apply Classical.byContradiction
      intro hn
      rw [(Dict.get?_eq_none_iff _ _).2 hn] at ht
      cases ht
    have hjc := joinChar_eq x.1.vfuncs x.2 k fns j h5 hkeys hf1 hf2 hf3
    simp only [List.map_cons, steps, step_single, bind_ok_iff] at h
    obtain ⟨m, e1, e2⟩ := h
    simp only [applyHit, hp, Bool.false_eq_true, if_false, if_neg h3, doAction, h1, doJoin, h2, if_true, hjc, bind_ok_iff,
      pure_ok, Except.ok.injEq] at e1
    obtain ⟨r, e3, e4⟩ := e1
    have hget := joinAll_get _ _ _ _ h5 e3 (.s k)
    rw [ht] at hget
    obtain ⟨w, e5, e6⟩ := hget
    have hrec : m.record.result = r := by rw [← e4]
    have hpath : m.record.path = ms.record.path := by rw [← e4]
    have hend : m.ended = ms.ended := by rw [← e4]
    have hw : w = .str (join j (old.toList ++ [t])) := by
      rw [hold] at e5
      cases old with
      | none => simp only [Option.map_none, joinVal, pure_ok, Except.ok.injEq] at e5; rw [← e5]; rfl
      | some o => simp only [Option.map_some, joinVal, pure_ok, Except.ok.injEq] at e5; rw [← e5]; simp [join]
    have := ih m (some (join j (old.toList ++ [t]))) (by rw [hrec, e6, hw]; rfl) texts'
      (fun y hy => by rw [hpath, hend]; exact hact y (by simp [hy])) (fun y hy => hfun y (by simp [hy])) htext (by simp) e2
    rw [this]
    have flat : ∀ (a b : List Str), a ≠ [] → join j (join j a :: b) = join j (a ++ b) := by
      intro a
      induction a with
      | nil => intro b h; exact absurd rfl h
      | cons y a ih2 =>
        intro b _
        cases a with
        | nil => rfl
        | cons z a =>
          have h3 := ih2 b (by simp)
          cases b with
          | nil => simp [join]
          | cons b bs =>
            simp only [List.cons_append, join] at h3 ⊢
            rw [← h3]; simp [List.append_assoc]
    rw [Option.toList_some, List.singleton_append, flat _ _ (by simp)]
    simp [List.append_assoc]

/-- C15 for variables turned into lists (`to_list`): the value is the concatenation of all lists in order, whatever the
join character. -/
theorem C15_lists_concatenated (toInt : Bool) (gf : GroupFns) (k : Str) (ms ms' : MS) (xs : List Val)
    (hold : Dict.get? ms.record.result (.s k) = some (.list xs))
    (hits : List (RE × Dict Key Val)) (lists : List (List Val))
    (hact : ∀ h ∈ hits, h.1.action = .join ∧ h.1.path = ms.record.path ∧ h.1.gid ∉ ms.ended ∧
      (∀ p, h.1.parent = some p → p ∉ ms.ended) ∧ Dict.WF h.2)
    (htext : All2 (fun h l => Dict.get? h.2 (.s k) = some (.list l)) hits lists)
    (h : steps toInt gf ms (hits.map (fun h => [(h.1, some h.2)])) = .ok ms') :
    Dict.get? ms'.record.result (.s k) = some (.list (xs ++ lists.flatten)) := by
  induction hits generalizing ms lists xs with
  | nil =>
    cases htext
    simp only [List.map_nil, steps, pure_ok, Except.ok.injEq] at h
    subst h
    rw [hold]; simp
  | cons x hits ih =>
    cases htext with
    | @cons _ l _ lists' ht htext =>
    obtain ⟨h1, h2, h3, h4, h5⟩ := hact x (by simp)
    have hp : parentEnded ms x.1 = false := by
      unfold parentEnded
      cases hpp : x.1.parent with
      | none => rfl
      | some p => simpa using h4 p hpp
    simp only [List.map_cons, steps, step_single, bind_ok_iff] at h
    obtain ⟨m, e1, e2⟩ := h
    simp only [applyHit, hp, Bool.false_eq_true, if_false, if_neg h3, doAction, h1, doJoin, h2, if_true, bind_ok_iff,
      pure_ok, Except.ok.injEq] at e1
    obtain ⟨r, e3, e4⟩ := e1
    have hget := joinAll_get _ _ _ _ h5 e3 (.s k)
    rw [ht, hold] at hget
    obtain ⟨w, e5, e6⟩ := hget
    simp only [joinVal, pure_ok, Except.ok.injEq] at e5
    have := ih m (xs ++ l) (by rw [← e4]; simp only; rw [e6, ← e5]) lists'
      (fun y hy => by rw [← e4]; exact hact y (by simp [hy])) htext e2
    rw [this]; simp [List.append_assoc]

example : (steps false Ex.gf0 Ex.ms1 ([Ex.kv c!"vlans" c!"1-2", Ex.kv c!"vlans" c!"3", Ex.kv c!"vlans" c!"4"].map
      (fun d => [(Ex.reJoin, some d)]))).map (fun m => Dict.get? m.record.result (.s c!"vlans")) =
    .ok (some (.str c!"1-2,3,4")) := by decide +kernel

example (ms' : MS) (h : steps false Ex.gf0 Ex.ms1 ([(Ex.reJoin, Ex.kv c!"vlans" c!"1-2"), (Ex.reJoin, Ex.kv c!"vlans" c!"3")].map
      (fun h => [(h.1, some h.2)])) = .ok ms') :
    Dict.get? ms'.record.result (.s c!"vlans") = some (.str c!"1-2,3") := by
  refine C15_joined_in_order false Ex.gf0 c!"vlans" c!"," Ex.ms1 ms' none rfl
    [(Ex.reJoin, Ex.kv c!"vlans" c!"1-2"), (Ex.reJoin, Ex.kv c!"vlans" c!"3")] [c!"1-2", c!"3"] ?_ ?_
    (.cons rfl (.cons rfl .nil)) (by decide) h
  · intro h hh
    simp only [List.mem_cons, List.mem_nil_iff, or_false] at hh
    rcases hh with rfl | rfl
    · exact ⟨rfl, rfl, by decide, by (intro p e; cases e), by simp [Ex.kv, Dict.WF, Dict.keys]⟩
    · exact ⟨rfl, rfl, by decide, by (intro p e; cases e), by simp [Ex.kv, Dict.WF, Dict.keys]⟩
  · have key : ∀ v, (∃ fns, Dict.get? Ex.reJoin.vfuncs c!"vlans" = some fns ∧ JoinsBy fns c!",") ∧
        ∀ n fns, n ≠ c!"vlans" → Key.s n ∈ Dict.keys (Ex.kv c!"vlans" v) → Dict.get? Ex.reJoin.vfuncs n = some fns →
          ∀ f ∈ fns, f.name ≠ c!"joinmatches" := by
      intro v
      refine ⟨⟨_, rfl, Or.inr ⟨[], _, [], rfl, by simp, rfl, Or.inr rfl⟩⟩, ?_⟩
      intro n fns hn hm
      simp only [Ex.kv, Dict.keys, List.map_cons, List.map_nil, List.mem_singleton, Key.s.injEq] at hm
      exact absurd hm hn
    intro h hh
    simp only [List.mem_cons, List.mem_nil_iff, or_false] at hh
    rcases hh with rfl | rfl
    · exact key _
    · exact key _

/-! ## C16 -/

/-- C16, a direct child: while the parent group is ended, matches of the child with values have no effect. -/
theorem C16_child_of_ended_is_silent_partial (toInt : Bool) (gf : GroupFns) (ms : MS) (re : RE) (d : Dict Key Val) (p : GId)
    (hp : re.parent = some p) (hended : p ∈ ms.ended) : step toInt gf ms [(re, some d)] = .ok ms := by
  rw [step_single]
  simp [applyHit, parentEnded, hp, hended]

/-- groups of three levels: parent, child, grandchild -/
def Ex.reP : RE := ⟨(c!"p", 0), none, [c!"p"], [], [], .start, false, []⟩
def Ex.reC : RE := ⟨(c!"p.c", 0), some (c!"p", 0), [c!"p", c!"c"], [], [], .start, false, []⟩
def Ex.reG : RE := ⟨(c!"p.c.g", 0), some (c!"p.c", 0), [c!"p", c!"c", c!"g"], [], [], .start, false, []⟩

/-- C16 is false of the code below the first level: the start of `p` is rejected, its child is dropped, but the
grandchild is reported, in results that have no record of the parent. -/
theorem C16_grandchild_leaks :
    (makeResults false Ex.gf0 [] [] [] [[[(Ex.reP, none)], [(Ex.reC, some (Ex.kv c!"c" c!"1"))],
        [(Ex.reG, some (Ex.kv c!"g" c!"2"))]]] (.dict [])).map (·.results) =
      .ok (.dict [(.s c!"p", .dict [(.s c!"c", .dict [(.s c!"g", .dict [(.s c!"g", .str c!"2")])])])]) := by decide +kernel

example : step false Ex.gf0 { Ex.ms1 with ended := [(c!"p", 0)] } [(Ex.reC, some (Ex.kv c!"c" c!"1"))] =
    .ok { Ex.ms1 with ended := [(c!"p", 0)] } :=
  C16_child_of_ended_is_silent_partial false Ex.gf0 _ Ex.reC _ (c!"p", 0) rfl (by decide)

/-! ## C17 -/

/-- C17. One of the matches of a position is used; no match of the position has a better rank (`_start_` line, start
line, ordinary or `_end_` line, `_line_`); and if a match of the same rank belongs to the group of the current record
(and passed its checks, for start lines) then the match that is used belongs to that group (and passed its checks). -/
theorem C17_preference (ms : MS) (hs : List Hit) (hne : hs ≠ []) :
    ∃ h, select ms hs = some h ∧ h ∈ hs ∧ (∀ h' ∈ hs, rank h ≤ rank h') ∧
      ∀ h' ∈ hs, rank h' = rank h → ms.record.grpId = some h'.1.gid → (h'.2.isSome = true ∨ 2 ≤ rank h') →
        ms.record.grpId = some h.1.gid ∧ (rank h < 2 → h.2.isSome = true) := by
  obtain ⟨h, hsel⟩ := select_some ms hs hne
  obtain ⟨h1, h2⟩ := select_class ms hs h hsel
  exact ⟨h, hsel, h1, h2, fun h' hm hr hg hv => select_prefers ms hs h h' hsel hm hr hg hv⟩

theorem firstOr_split (p1 p2 : Hit → Bool) (hs : List Hit) (h : Hit) (e : firstOr p1 p2 hs = some h) :
    ∃ pre post, hs = pre ++ h :: post ∧
      ((p1 h = true ∧ ∀ x ∈ pre, p1 x = false) ∨
       ((∀ x ∈ hs, p1 x = false) ∧ p2 h = true ∧ ∀ x ∈ pre, p2 x = false) ∨
       ((∀ x ∈ hs, p1 x = false ∧ p2 x = false) ∧ post = [])) := by
  unfold firstOr at e
  split at e
  · rename_i h1
    cases e
    obtain ⟨a, pre, post, b, c⟩ := List.find?_eq_some_iff_append.1 h1
    exact ⟨pre, post, b, Or.inl ⟨a, fun x hx => by simpa using c x hx⟩⟩
  · rename_i n1
    rw [List.find?_eq_none] at n1
    have n1' : ∀ x ∈ hs, p1 x = false := fun x hx => by simpa using n1 x hx
    split at e
    · rename_i h1
      cases e
      obtain ⟨a, pre, post, b, c⟩ := List.find?_eq_some_iff_append.1 h1
      exact ⟨pre, post, b, Or.inr (Or.inl ⟨n1', a, fun x hx => by simpa using c x hx⟩)⟩
    · rename_i n2
      rw [List.find?_eq_none] at n2
      obtain ⟨pre, b⟩ := List.getLast?_eq_some_iff.1 e
      exact ⟨pre, [], b, Or.inr (Or.inr ⟨fun x hx => ⟨n1' x hx, by simpa using n2 x hx⟩, rfl⟩)⟩

/-- The choice in terms of ranks. -/
theorem select_ranks (ms : MS) (hs : List Hit) (h : Hit) (e : select ms hs = some h) :
    ∃ p1 p2, (∀ x, rank x = rank h → (p1 x = true ↔ Near ms x) ∧ (p2 x = true ↔ Kin ms x)) ∧
      firstOr p1 p2 (hs.filter (fun x => decide (rank x = rank h))) = some h := by
  have hcl := select_class ms hs h e
  unfold select at e
  split at e
  · rename_i x
    cases e
    refine ⟨fun x => @decide (Near ms x) (Classical.propDecidable _), fun x => @decide (Kin ms x) (Classical.propDecidable _), ?_, ?_⟩
    · intro x _; simp
    · simp only [decide_true, List.filter_cons_of_pos, List.filter_nil]
      unfold firstOr
      split
      · rename_i h1
        have := List.mem_of_find?_eq_some h1
        simp at this; rw [this]
      · split
        · rename_i h1
          have := List.mem_of_find?_eq_some h1
          simp at this; rw [this]
        · rfl
  · dsimp only at e
    have nearStart : ∀ x : Hit, rank x < 2 → ((sameGroupOk ms x = true ↔ Near ms x) ∧ (relatedOk ms x = true ↔ Kin ms x)) := by
      intro x hx
      constructor
      · unfold sameGroupOk Near
        rw [Bool.and_eq_true, beq_iff_eq, Option.isSome_iff_ne_none]
        exact ⟨fun ⟨a, b⟩ => ⟨b, fun _ => a⟩, fun ⟨a, b⟩ => ⟨b hx, a⟩⟩
      · unfold relatedOk Kin
        have h2 : ¬ rank x = 2 := by omega
        simp only [hx, true_and, h2, false_and, or_false, Bool.and_eq_true, Bool.or_eq_true, Option.isSome_iff_ne_none]
        have a : (match ms.record.grpId with | some g => startsWith x.1.gid.1 g.1 | none => false) = true ↔
            ∃ g, ms.record.grpId = some g ∧ g.1 <+: x.1.gid.1 := by
          cases ms.record.grpId with
          | none => simp
          | some g => simp [startsWith]
        have b : (match x.1.parent with | some p => ms.started.contains p | none => false) = true ↔
            ∃ p, x.1.parent = some p ∧ p ∈ ms.started := by
          cases x.1.parent with
          | none => simp
          | some g => simp
        exact and_congr_right (fun _ => or_congr a b)
    have cls : ∀ x : Hit, (rank x = 0 ↔ x.1.isLine = false ∧ x.1.action = .startempty) ∧
        (rank x = 1 ↔ x.1.isLine = false ∧ x.1.action = .start) ∧
        (rank x = 2 ↔ x.1.isLine = false ∧ ¬ x.1.action = .start ∧ ¬ x.1.action = .startempty) ∧
        (rank x = 3 ↔ x.1.isLine = true) := by
      intro x
      unfold rank
      cases x.1.isLine <;> cases x.1.action <;> simp
    have conv : ∀ (p q : Hit → Bool), (∀ x, (p x = true ∧ q x = true) ↔ rank x = rank h) →
        (hs.filter p).filter q = hs.filter (fun x => decide (rank x = rank h)) := by
      intro p q hpq
      rw [List.filter_filter]
      apply List.filter_congr
      intro x _
      have := hpq x
      rw [Bool.eq_iff_iff, Bool.and_eq_true, decide_eq_true_eq, ← this, and_comm]
    split at e
    · have hm := firstOr_mem _ _ _ _ e
      simp only [List.mem_filter, Bool.not_eq_true', beq_iff_eq] at hm
      have r : rank h = 0 := (cls h).1.2 ⟨hm.1.2, hm.2⟩
      rw [conv _ _ (by intro x; rw [r, (cls x).1]; simp)] at e
      exact ⟨_, _, fun x hx => nearStart x (by omega), e⟩
    · split at e
      · have hm := firstOr_mem _ _ _ _ e
        simp only [List.mem_filter, Bool.not_eq_true', beq_iff_eq] at hm
        have r : rank h = 1 := (cls h).2.1.2 ⟨hm.1.2, hm.2⟩
        rw [conv _ _ (by intro x; rw [r, (cls x).2.1]; simp)] at e
        exact ⟨_, _, fun x hx => nearStart x (by omega), e⟩
      · split at e
        · have hm := firstOr_mem _ _ _ _ e
          simp only [List.mem_filter, Bool.not_eq_true', Bool.and_eq_true, beq_eq_false_iff_ne] at hm
          have r : rank h = 2 := (cls h).2.2.1.2 ⟨hm.1.2, hm.2⟩
          rw [conv _ _ (by intro x; rw [r, (cls x).2.2.1]; simp)] at e
          refine ⟨_, _, fun x hx => ⟨?_, ?_⟩, e⟩
          · unfold sameGroup Near
            rw [beq_iff_eq]
            exact ⟨fun a => ⟨a, fun c => by omega⟩, fun a => a.1⟩
          · unfold groupStarted Kin
            have h2 : ¬ rank x < 2 := by omega
            have h3 : rank x = 2 := by omega
            simp [h3]
        · have hm := firstOr_mem _ _ _ _ e
          simp only [List.mem_filter] at hm
          have r : rank h = 3 := (cls h).2.2.2.2 hm.2
          have : hs.filter (fun h => h.1.isLine) = hs.filter (fun x => decide (rank x = rank h)) := by
            apply List.filter_congr
            intro x _
            rw [Bool.eq_iff_iff, decide_eq_true_eq, r, (cls x).2.2.2]
          rw [this] at e
          refine ⟨_, _, fun x hx => ⟨?_, ?_⟩, e⟩
          · unfold sameGroup Near
            rw [beq_iff_eq]
            exact ⟨fun a => ⟨a, fun c => by omega⟩, fun a => a.1⟩
          · unfold Kin
            have h2 : ¬ rank x < 2 := by omega
            have h3 : ¬ rank x = 2 := by omega
            simp [h2, h3]

/-- C17, all of it: among the matches of the best rank the first that belongs to the group of the current record, if there is none the
first that is related (start lines: of a group below the current one or whose parent was started; ordinary lines: of a group that was
started), if there is none the last. -/
theorem C17_choice (ms : MS) (hs : List Hit) (hne : hs ≠ []) :
    ∃ h pre post, select ms hs = some h ∧ hs.filter (fun x => decide (rank x = rank h)) = pre ++ h :: post ∧
      (∀ x ∈ hs, rank h ≤ rank x) ∧
      ((Near ms h ∧ ∀ x ∈ pre, ¬ Near ms x) ∨
       ((∀ x ∈ pre ++ h :: post, ¬ Near ms x) ∧ Kin ms h ∧ ∀ x ∈ pre, ¬ Kin ms x) ∨
       ((∀ x ∈ pre ++ h :: post, ¬ Near ms x ∧ ¬ Kin ms x) ∧ post = [])) := by
  obtain ⟨h, hsel⟩ := select_some ms hs hne
  obtain ⟨p1, p2, hp, hf⟩ := select_ranks ms hs h hsel
  obtain ⟨pre, post, e, hc⟩ := firstOr_split p1 p2 _ h hf
  have hr : ∀ x ∈ pre ++ h :: post, rank x = rank h := by
    intro x hx
    rw [← e] at hx
    simpa using (List.mem_filter.1 hx).2
  have n1 : ∀ x ∈ pre ++ h :: post, p1 x = false → ¬ Near ms x := by
    intro x hx hf hn
    rw [((hp x (hr x hx)).1).2 hn] at hf; cases hf
  have n2 : ∀ x ∈ pre ++ h :: post, p2 x = false → ¬ Kin ms x := by
    intro x hx hf hn
    rw [((hp x (hr x hx)).2).2 hn] at hf; cases hf
  have hh := hp h rfl
  refine ⟨h, pre, post, hsel, e, (select_class ms hs h hsel).2, ?_⟩
  rw [e] at hc
  rcases hc with ⟨a, b⟩ | ⟨a, b, c⟩ | ⟨a, b⟩
  · exact Or.inl ⟨hh.1.1 a, fun x hx => n1 x (by simp [hx]) (b x hx)⟩
  · exact Or.inr (Or.inl ⟨fun x hx => n1 x hx (a x hx), hh.2.1 b, fun x hx => n2 x (by simp [hx]) (c x hx)⟩)
  · exact Or.inr (Or.inr ⟨fun x hx => ⟨n1 x hx (a x hx).1, n2 x hx (a x hx).2⟩, b⟩)

/-- two start lines of other groups: the one below the current group is chosen; without a current group and without started groups the
last one -/
example : select Ex.ms1 [({ Ex.reStart with gid := (c!"x", 1) }, some []), ({ Ex.reStart with gid := (Ex.gI.1 ++ c!".y", 2) }, some []),
      ({ Ex.reStart with gid := (c!"z", 3) }, some [])] = some ({ Ex.reStart with gid := (Ex.gI.1 ++ c!".y", 2) }, some []) ∧
    select { Ex.ms1 with record := { Ex.ms1.record with grpId := none }, started := [] } [({ Ex.reStart with gid := (c!"x", 1) }, some []),
      ({ Ex.reStart with gid := (c!"z", 3) }, some [])] = some ({ Ex.reStart with gid := (c!"z", 3) }, some []) ∧
    Ex.ms1.record.grpId = some Ex.gI := by decide

/-- C17, the step: the effect of a position is the effect of the chosen match alone. -/
theorem C17_only_the_chosen_counts (toInt : Bool) (gf : GroupFns) (ms : MS) (hs : List Hit) (h : Hit)
    (hsel : select ms hs = some h) : step toInt gf ms hs = step toInt gf ms [h] := by
  rw [step_single, step, hsel]

example : select Ex.ms1 [({ Ex.reAdd with isLine := true }, some []), (Ex.reAdd, some []),
      ({ Ex.reStart with gid := (c!"x", 1) }, some []), (Ex.reStart, some [])] = some (Ex.reStart, some []) := by decide

/-! ## C18 -/

/-- C18. A function of the group rejects the record: the results are as before, and the outcome does not depend on the
functions after it. -/
theorem C18_rejected_record_leaves_no_trace (toInt : Bool) (gf : GroupFns) (hk : KeepsResults gf) (ms : MS)
    (hm : ms.record.merge = false) (pre post : List FnCall) (f : FnCall)
    (hfs : ms.record.functions = pre ++ f :: post) (ms1 ms2 : MS) (v v2 : Val)
    (hpre : runFns gf pre ms (.dict (addDefaults ms.record.result ms.record.defaults)) = .ok (ms1, some v))
    (hrej : gf f ms1 v = .ok (ms2, v2, some false)) :
    flush toInt gf ms = .ok ms2 ∧ ms2.results = ms.results := by
  have run : ∀ (fs : List FnCall) (m : MS) (w : Val), runFns gf fs m w = .ok (ms1, some v) →
      runFns gf (fs ++ f :: post) m w = .ok (ms2, none) ∧ ms1.results = m.results := by
    intro fs
    induction fs with
    | nil =>
      intro m w e
      simp only [runFns, pure_ok, Except.ok.injEq, Prod.mk.injEq, Option.some.injEq] at e
      obtain ⟨rfl, rfl⟩ := e
      simp [runFns, hrej]
    | cons x fs ih =>
      intro m w e
      simp only [runFns, bind_ok_iff] at e
      obtain ⟨⟨m1, w1, fl⟩, e1, e2⟩ := e
      simp only at e2
      split at e2
      · simp at e2
      · rename_i hfl
        obtain ⟨h1, h2⟩ := ih _ _ e2
        refine ⟨?_, h2.trans (hk _ _ _ _ _ _ e1)⟩
        simp only [List.cons_append, runFns, e1, ok_bind]
        rw [if_neg hfl]; exact h1
  obtain ⟨h1, h2⟩ := run pre ms _ hpre
  refine ⟨?_, (hk _ _ _ _ _ _ hrej).trans h2⟩
  simp only [flush, processgrp, preMerge, hm, Bool.false_eq_true, if_false, pure_ok, ok_bind, hfs, h1]

/-- C18 for late matches: a late match that the group functions reject leaves the results as they were. The functions
get the saved record with the new values. -/
theorem C18_rejected_late_match_leaves_no_trace (toInt : Bool) (gf : GroupFns) (hk : KeepsResults gf) (ms : MS)
    (hm : ms.record.merge = true) (hs : StaticPath ms.record.path) (hne : ms.record.path ≠ [])
    (hnull : ∀ p ∈ parsePath ms.record.path, p.name ≠ c!"_")
    (e : Dict Key Val) (x : Val) (hx : x = .dict e ∨ ∃ xs, x = .list (xs ++ [.dict e]))
    (hat : At (pathKeys toInt (parsePath ms.record.path)) ms.results x)
    (f : FnCall) (post : List FnCall) (hfs : ms.record.functions = f :: post) (ms2 : MS) (v2 : Val)
    (hrej : gf f ms (.dict (Dict.update e (addDefaults ms.record.result ms.record.defaults))) = .ok (ms2, v2, some false)) :
    flush toInt gf ms = .ok ms2 ∧ ms2.results = ms.results := by
  simp only [pathKeys_eq] at *
  refine ⟨?_, hk _ _ _ _ _ _ hrej⟩
  obtain ⟨R', h1, _, h3⟩ := modAt_At toInt (fun v => pure (v, v)) (parsePath ms.record.path) hnull ms.results x hat x x rfl
  have h3 := h3 rfl
  subst h3
  have hpath : ∃ p ps, parsePath ms.record.path = p :: ps := by
    cases hp : ms.record.path with
    | nil => exact absurd hp hne
    | cons a as => exact ⟨_, _, rfl⟩
  obtain ⟨p, ps, hpp⟩ := hpath
  have hrec : reconstruct toInt (.dict (addDefaults ms.record.result ms.record.defaults)) (p :: ps) ms.results =
      .ok (ms.results, .dict (Dict.update e (addDefaults ms.record.result ms.record.defaults))) := by
    rw [← hpp]
    simp only [reconstruct, h1, ok_bind]
    rcases hx with rfl | ⟨xs, rfl⟩
    · simp [updateArg]
    · simp [updateArg]
  simp only [flush, processgrp, preMerge, hm, if_true, formPath_static _ _ hs, ok_bind, hpp, hrec, pure_ok]
  simp only [hfs, runFns, hrej, ok_bind, if_true, pure_ok]

theorem Ex.keepsResNo : KeepsResults Ex.gfNo := by
  intro f ms v ms' v' fl h
  simp only [Ex.gfNo, pure_ok, Except.ok.injEq, Prod.mk.injEq] at h
  rw [← h.1]

example : flush false Ex.gfNo { Ex.ms1 with record := { Ex.ms1.record with functions := [⟨c!"contains", [], []⟩] } } =
    .ok { Ex.ms1 with record := { Ex.ms1.record with functions := [⟨c!"contains", [], []⟩] } } :=
  (C18_rejected_record_leaves_no_trace false Ex.gfNo Ex.keepsResNo
    { Ex.ms1 with record := { Ex.ms1.record with functions := [⟨c!"contains", [], []⟩] } } rfl [] [] ⟨c!"contains", [], []⟩ rfl
    _ _ _ _ rfl rfl).1

/-! ## C19 -/

/-- C19, nothing matched: no template variable is saved, the results are what was there. -/
theorem C19_nothing_without_matches (toInt : Bool) (gf : GroupFns) (vtr : Dict Str (List Str)) (vars gvars : Dict Str Val)
    (R0 : Val) : (makeResults toInt gf vtr vars gvars [] R0).map (·.results) = .ok R0 := by
  simp only [makeResults, List.isEmpty_nil, if_true, List.flatten_nil, steps, pure_ok, ok_bind]
  rw [flush_empty toInt gf _ rfl]; rfl

theorem pickVars_get (vars : Dict Str Val) (names : List Str) (n : Str) :
    Dict.get? (pickVars vars names) (.s n) = if n ∈ names then Dict.get? vars n else none := by
  have : ∀ (names : List Str) (acc : Dict Key Val), Dict.get? (names.foldl (fun acc n => match Dict.get? vars n with
      | some v => Dict.set acc (.s n) v
      | none => acc) acc) (.s n) = if n ∈ names then (Dict.get? vars n).or (Dict.get? acc (.s n)) else Dict.get? acc (.s n) := by
    intro names
    induction names with
    | nil => intro acc; simp
    | cons x names ih =>
      intro acc
      rw [List.foldl_cons, ih]
      cases hx : Dict.get? vars x with
      | none =>
        by_cases e : x = n
        · subst e; by_cases h : x ∈ names <;> simp [h, hx]
        · simp [Ne.symm e]
      | some v =>
        by_cases e : x = n
        · subst e; by_cases h : x ∈ names <;> simp [h, hx, Dict.get?_set_self]
        · simp only [List.mem_cons, Ne.symm e, false_or]
          rw [Dict.get?_set_ne _ _ (by simpa using e)]
  exact (this names []).trans (by simp)

theorem pickVars_WF (vars : Dict Str Val) (names : List Str) : Dict.WF (pickVars vars names) := by
  have : ∀ (names : List Str) (acc : Dict Key Val), Dict.WF acc → Dict.WF (names.foldl (fun acc n => match Dict.get? vars n with
      | some v => Dict.set acc (.s n) v
      | none => acc) acc) := by
    intro names
    induction names with
    | nil => intro acc h; exact h
    | cons x names ih =>
      intro acc h
      rw [List.foldl_cons]
      apply ih
      cases Dict.get? vars x with
      | none => exact h
      | some v => exact Dict.WF_set _ _ _ h
  exact this names [] (by simp [Dict.WF, Dict.keys])

theorem insertSorted_perm {α : Type} (le : α → α → Bool) (x : α) (l : List α) : (insertSorted le x l).Perm (x :: l) := by
  induction l with
  | nil => exact List.Perm.refl _
  | cons y l ih =>
    rw [insertSorted]
    split
    · exact List.Perm.refl _
    · exact (List.Perm.cons y ih).trans (List.Perm.swap x y l)

theorem sorted_perm {α : Type} (le : α → α → Bool) (l : List α) : (sorted le l).Perm l := by
  induction l with
  | nil => exact List.Perm.refl _
  | cons x l ih =>
    show (insertSorted le x (sorted le l)).Perm (x :: l)
    exact (insertSorted_perm le x _).trans (List.Perm.cons x ih)

/-- C19. Template variables of tags with a name, whatever their number: if the paths of the tags part from each other
and lead to places where nothing is yet, then after saving there is under each path the dictionary of exactly the
variables of the tag that exist, with their values (inside of a list of one item if the name ends with `*`). -/
theorem C19_named_variables_saved (toInt : Bool) (vtr : Dict Str (List Str)) (ms : MS)
    (hname : ∀ e ∈ vtr, e.1 ≠ [] ∧ '{' ∉ e.1 ∧ (∀ p ∈ tagPath e.1, p.name ≠ c!"_"))
    (hdiv : vtr.Pairwise (fun a b => Diverge (pathKeys toInt (tagPath a.1)) (pathKeys toInt (tagPath b.1))))
    (hab : ∀ e ∈ vtr, Absent (pathKeys toInt (tagPath e.1)) ms.results)
    (hex : ∀ e ∈ vtr, ∃ n ∈ e.2, (Dict.get? ms.vars n).isSome = true) :
    ∃ ms', saveVars toInt vtr ms = .ok ms' ∧ ms'.vars = ms.vars ∧ ms'.record = Record.empty ∧
      ∀ e ∈ vtr, ∃ D last, (∀ n, Dict.get? D (.s n) = if n ∈ e.2 then Dict.get? ms.vars n else none) ∧
        (tagPath e.1).getLast? = some last ∧
        At (pathKeys toInt (tagPath e.1)) ms'.results (if last.stars = 1 then .list [.dict D] else .dict D) := by
  simp only [pathKeys_eq] at *
  have dsymm : ∀ a b : List Key, Diverge a b → Diverge b a := fun a b h => ⟨h.2, h.1⟩
  have main : ∀ (l : List (Str × List Str)) (m : MS), m.vars = ms.vars →
      (∀ e ∈ l, e.1 ≠ [] ∧ '{' ∉ e.1 ∧ (∀ p ∈ tagPath e.1, p.name ≠ c!"_")) →
      l.Pairwise (fun a b => Diverge (pkeys toInt (tagPath a.1)) (pkeys toInt (tagPath b.1))) →
      (∀ e ∈ l, Absent (pkeys toInt (tagPath e.1)) m.results) →
      (∀ e ∈ l, ∃ n ∈ e.2, (Dict.get? ms.vars n).isSome = true) →
      ∃ m', saveVarsAll toInt m l = .ok m' ∧ m'.vars = ms.vars ∧
        (∀ q x, (∀ e ∈ l, Diverge q (pkeys toInt (tagPath e.1))) → At q m.results x → At q m'.results x) ∧
        ∀ e ∈ l, ∃ D last, (∀ n, Dict.get? D (.s n) = if n ∈ e.2 then Dict.get? ms.vars n else none) ∧
          (tagPath e.1).getLast? = some last ∧
          At (pkeys toInt (tagPath e.1)) m'.results (if last.stars = 1 then .list [.dict D] else .dict D) := by
    intro l
    induction l with
    | nil => intro m hv _ _ _ _; exact ⟨m, rfl, hv, fun _ _ _ h => h, by simp⟩
    | cons e l ih =>
      intro m hv hname hdiv hab hex
      obtain ⟨name, names⟩ := e
      obtain ⟨hne, hbr, hnull⟩ := hname (name, names) (by simp)
      have hstatic : StaticPath ((splitC '.' name).map strip) := by
        intro item hitem hc
        obtain ⟨w, hw, rfl⟩ := List.mem_map.1 hitem
        have h1 : '{' ∈ w := by
          have h2 := rstripP_mem _ _ _ (hc : '{' ∈ rstripP isSpace (lstrip w))
          exact (List.dropWhile_sublist isSpace (l := w)).subset h2
        have : ∀ (s : Str) (w : Str), w ∈ splitC '.' s → '{' ∈ w → '{' ∈ s := by
          intro s
          induction s with
          | nil => intro w hw hc; simp [splitC] at hw; subst hw; exact hc
          | cons c cs ih =>
            intro w hw hc
            rw [splitC] at hw
            split at hw
            · rcases List.mem_cons.1 hw with rfl | hw
              · cases hc
              · exact List.mem_cons_of_mem _ (ih w hw hc)
            · split at hw
              · simp only [List.mem_singleton] at hw; subst hw
                rcases List.mem_cons.1 hc with h | h
                · rw [h]; exact List.mem_cons_self
                · cases h
              · rename_i w0 ws hs
                rcases List.mem_cons.1 hw with rfl | hw
                · rcases List.mem_cons.1 hc with h | h
                  · rw [h]; exact List.mem_cons_self
                  · exact List.mem_cons_of_mem _ (ih w0 (by rw [hs]; simp) h)
                · exact List.mem_cons_of_mem _ (ih w (by rw [hs]; simp [hw]) hc)
        exact hbr (this name w hw h1)
      have hsplit : ∀ s : Str, splitC '.' s ≠ [] := by
        intro s; cases s with
        | nil => simp [splitC]
        | cons c cs => rw [splitC]; split <;> (try split) <;> simp
      obtain ⟨p, ps, hp⟩ : ∃ p ps, tagPath name = p :: ps := by
        cases hs : splitC '.' name with
        | nil => exact absurd hs (hsplit _)
        | cons a as => exact ⟨_, _, by simp only [tagPath, parsePath, hs, List.map_cons]; rfl⟩
      obtain ⟨last, hlast⟩ : ∃ last, (tagPath name).getLast? = some last :=
        ⟨(tagPath name).getLast (by rw [hp]; simp), List.getLast?_eq_some_getLast _⟩
      have hD : pickVars m.vars names ≠ [] := by
        obtain ⟨n, hn, hs⟩ := hex (name, names) (by simp)
        intro e
        have := pickVars_get m.vars names n
        rw [e, if_pos hn, hv] at this
        rw [← this] at hs
        simp at hs
      have hleaf : saveElem false (isDStar (tagPath name)) (.dict (pickVars m.vars names)) (leaf (tagPath name)) =
          .ok ((if last.stars = 1 then .list [.dict (pickVars m.vars names)] else .dict (pickVars m.vars names)), false) := by
        by_cases hst : last.stars = 1
        · rw [leaf_star hlast hst, if_pos hst]; simp [saveElem, Val.truthy, hD]
        · rw [leaf_nostar hlast hst, if_neg hst]
          have hu := Dict.update_nil_left _ (pickVars_WF m.vars names)
          by_cases hds : isDStar (tagPath name) = true
          · simp [saveElem, hds, hu]
          · simp [saveElem, hds, updateArg, hu]
      obtain ⟨R', h1, h2⟩ := save_Absent toInt false (.dict (pickVars m.vars names)) (tagPath name) hnull m.results _
        (hab (name, names) (by simp)) hleaf
      have hstep : saveVarsAt toInt m name names = .ok { m with results := R' } := by
        unfold saveVarsAt
        rw [if_neg (by cases name; exact absurd rfl hne; simp), formPath_static _ _ hstatic]
        have : parsePath ((splitC '.' name).map strip) = p :: ps := hp
        rw [hp] at h1
        simp only [ok_bind, this, h1, pure_ok]
      have hkeep := fun q hq => save_keep toInt false (.dict (pickVars m.vars names)) (tagPath name) hnull m.results R' _
        (hab (name, names) (by simp)) hleaf h1 q hq
      have hpw := List.pairwise_cons.1 hdiv
      obtain ⟨m', e1, e2, e3, e4⟩ := ih { m with results := R' } hv (fun e he => hname e (by simp [he])) hpw.2
        (fun e he => (hkeep _ (dsymm _ _ (hpw.1 e he))).1 (hab e (by simp [he]))) (fun e he => hex e (by simp [he]))
      refine ⟨m', by simp only [saveVarsAll, hstep, ok_bind]; exact e1, e2, ?_, ?_⟩
      · intro q x hq hx
        exact e3 q x (fun e he => hq e (by simp [he])) ((hkeep q (hq (name, names) (by simp))).2 x hx)
      · intro e he
        rcases List.mem_cons.1 he with rfl | he
        · refine ⟨pickVars m.vars names, last, fun n => by rw [pickVars_get, hv], hlast, ?_⟩
          exact e3 _ _ (fun e' he' => hpw.1 e' he') h2
        · exact e4 e he
  have perm := sorted_perm (fun a b : Str × List Str => strLe a.1 b.1) vtr
  obtain ⟨m', h1, h2, _, h4⟩ := main (sorted (fun a b => strLe a.1 b.1) vtr) ms rfl
    (fun e he => hname e (perm.subset he))
    ((perm.pairwise_iff (fun h => dsymm _ _ h)).2 hdiv)
    (fun e he => hab e (perm.subset he)) (fun e he => hex e (perm.subset he))
  refine ⟨{ m' with record := Record.empty }, by simp only [saveVars, h1, ok_bind, pure_ok], h2, rfl, ?_⟩
  exact fun e he => h4 e (perm.symm.subset he)

example : (saveVars false [(c!"b.vars", [c!"x", c!"y"]), (c!"a*", [c!"x"])]
      ⟨.dict [], [], [], Record.empty, [], [(c!"x", .int 1), (c!"y", .int 2)], []⟩).map (·.results) =
    .ok (.dict [(.s c!"a", .list [.dict [(.s c!"x", .int 1)]]),
      (.s c!"b", .dict [(.s c!"vars", .dict [(.s c!"x", .int 1), (.s c!"y", .int 2)])])]) := by decide +kernel

example : ∃ ms', saveVars false [(c!"b.vars", [c!"x", c!"y"]), (c!"a*", [c!"x"])]
      ⟨.dict [], [], [], Record.empty, [], [(c!"x", .int 1), (c!"y", .int 2)], []⟩ = .ok ms' := by
  obtain ⟨ms', h, _⟩ := C19_named_variables_saved false [(c!"b.vars", [c!"x", c!"y"]), (c!"a*", [c!"x"])]
    ⟨.dict [], [], [], Record.empty, [], [(c!"x", .int 1), (c!"y", .int 2)], []⟩
    (by decide) (by
      refine List.pairwise_cons.2 ⟨?_, List.pairwise_singleton _ _⟩
      intro b hb
      simp only [List.mem_singleton] at hb
      subst hb
      exact ⟨by decide, by decide⟩)
    (by
      intro e he
      simp only [List.mem_cons, List.mem_nil_iff, or_false] at he
      rcases he with rfl | rfl
      · exact Absent.missing (by decide)
      · exact Absent.missing (by decide))
    (by decide)
  exact ⟨ms', h⟩

end Props
