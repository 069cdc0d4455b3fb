import Verif.Spec.Own
import Verif.Proofs.EnvInv
import Verif.Props.Object
/-!
# C98: groups with their own outputs
-/

namespace Props
open Py Spec TTP

/-- the matches of a group -/
def rawOf (E : Engine) (env : Env) (text : Str) (g : Grp) : RawDict :=
  match runRe E.mf text g 0 none env [] with
  | .ok r => r.2
  | .error _ => []

theorem runRe_quiet (E : Engine) (hq : E.Quiet) (text : Str) (g : Grp) (env : Env) (r : Env × RawDict)
    (h : runRe E.mf text g 0 none env [] = .ok r) : r = (env, rawOf E env text g) := by
  have hk : KeepsM E.mf (fun v w => v = env.vars ∧ w = env.gvars) := by
    intro f env' v env'' v' fl hp he
    rw [hq.1 _ _ _ _ _ _ he]; exact hp
  have := runRe_env E.mf _ hk text g 0 none env [] r ⟨rfl, rfl⟩ h
  have h2 : rawOf E env text g = r.2 := by unfold rawOf; rw [h]
  rw [h2]
  obtain ⟨⟨a, b⟩, r2⟩ := r
  obtain ⟨c, d⟩ := env
  simp only at this ⊢
  rw [this.1, this.2]

theorem runGroups_quiet (E : Engine) (hq : E.Quiet) (text : Str) (env : Env) (gs : List Grp) :
    (∀ r, runGroups E.mf text gs env = .ok r → r = (env, gs.map (rawOf E env text)) ∧ ∀ g ∈ gs, runRe E.mf text g 0 none env [] = .ok (env, rawOf E env text g)) ∧
    ((∀ g ∈ gs, runRe E.mf text g 0 none env [] = .ok (env, rawOf E env text g)) → runGroups E.mf text gs env = .ok (env, gs.map (rawOf E env text))) := by
  induction gs with
  | nil => exact ⟨fun r h => by simp only [runGroups, pure_ok, Except.ok.injEq] at h; simp [← h], fun _ => rfl⟩
  | cons g gs ih =>
    constructor
    · intro r h
      simp only [runGroups, bind_ok_iff] at h
      obtain ⟨r1, h1, r2, h2, h3⟩ := h
      have e1 := runRe_quiet E hq text g env r1 h1
      subst e1
      obtain ⟨e2, e3⟩ := ih.1 r2 h2
      subst e2
      simp only [pure_ok, Except.ok.injEq] at h3
      refine ⟨by rw [← h3]; simp, ?_⟩
      intro g' hg
      rcases List.mem_cons.1 hg with rfl | hg
      · exact h1
      · exact e3 g' hg
    · intro h
      simp only [runGroups, h g (by simp), ok_bind, ih.2 (fun g' hg => h g' (by simp [hg])), pure_ok, List.map_cons]

theorem runSlots_objs (E : Engine) (tvars : Dict Str Val) (outs outs' : List Outputter) (v w : Val)
    (h : runOutputsAux E tvars outs v = .ok (w, outs')) : runSlots E tvars (outs.map .obj) v = .ok w := by
  induction outs generalizing v outs' with
  | nil => simp only [runOutputsAux, pure_ok, Except.ok.injEq, Prod.mk.injEq] at h; simp [runSlots, pure_ok, h.1]
  | cons o outs ih =>
    simp only [runOutputsAux, bind_ok_iff] at h
    obtain ⟨⟨v1, o1⟩, h1, ⟨v2, os⟩, h2, h3⟩ := h
    simp only [pure_ok, Except.ok.injEq, Prod.mk.injEq] at h3
    simp only [List.map_cons, runSlots, h1, ok_bind]
    obtain ⟨rfl, _⟩ := h3
    exact ih _ _ h2

theorem makeResults_quiet (E : Engine) (hq : E.Quiet) (vtr : Dict Str (List Str)) (env : Env) (raw : List (List (List Hit))) (main : Val) (ms : MS)
    (h : makeResults E.toInt E.gf vtr env.vars env.gvars raw main = .ok ms) : (⟨ms.vars, ms.gvars⟩ : Env) = env := by
  have hk : KeepsG E.gf (fun v w => v = env.vars ∧ w = env.gvars) := by
    intro f ms v ms' v' fl hp he
    rw [(hq.2 _ _ _ _ _ _ he).1, (hq.2 _ _ _ _ _ _ he).2]; exact hp
  have := makeResults_env E.toInt E.gf _ hk vtr env.vars env.gvars raw main ms ⟨rfl, rfl⟩ h
  rw [this.1, this.2]

/-- C98. A group with outputs of its own is kept out of the results of the other groups: these are what they are without it. What the group
finds in the text is a separate result, made by its outputs in the order of the attribute, of the results the text would have if the template
had only this group; these results follow the others in the order of the groups. -/
theorem C98_own_outputs (E : Engine) (hq : E.Quiet) (vtr : Dict Str (List Str)) (tvars : Dict Str Val) (groups : List (Grp × List Outputter))
    (text : Str) (env : Env) (main : Val) (ms : MS) (d : Dict Key Val)
    (hm : parseText E.mf E.gf E.toInt vtr ((groups.filter (fun g => decide (g.2 = []))).map (·.1)) text env main = .ok ms) (hd : ms.results = .dict d)
    (own : List (List Val)) (ho : All2 (OwnResult E vtr tvars text env) (groups.filter (fun g => decide (g.2 ≠ []))) own) :
    parseOwn E vtr tvars (groups.map (fun g => (g.1, g.2.map .obj))) text env main = .ok (gatherOwn d own.flatten, env) := by
  -- all groups are searched
  have hall2 : ∀ {l : List (Grp × List Outputter)} {own : List (List Val)}, All2 (OwnResult E vtr tvars text env) l own →
      ∀ p ∈ l, runRe E.mf text p.1 0 none env [] = .ok (env, rawOf E env text p.1) := by
    intro l own h
    induction h with
    | nil => intro p hp; simp at hp
    | @cons a b l own h _ ih =>
      intro p hp
      rcases List.mem_cons.1 hp with rfl | hp
      · cases h with
        | none h =>
          rw [h]
          have := runRe_quiet E hq text _ env _ h
          rw [← this]
        | some h _ _ =>
          obtain ⟨raw, h, _⟩ := h
          have := runRe_quiet E hq text _ env _ h
          rw [h, ← this]
      · exact ih p hp
  simp only [parseText, bind_ok_iff] at hm
  obtain ⟨r1, hr1, hm⟩ := hm
  obtain ⟨e1, e2⟩ := (runGroups_quiet E hq text env _).1 r1 hr1
  subst e1
  have hall : ∀ g ∈ (groups.map (fun g => (g.1, g.2.map (Slot.obj (O := Outputter))))).map (·.1),
      runRe E.mf text g 0 none env [] = .ok (env, rawOf E env text g) := by
    intro g hg
    rw [List.map_map] at hg
    obtain ⟨p, hp, rfl⟩ := List.mem_map.1 hg
    by_cases hp2 : p.2 = []
    · exact e2 _ (List.mem_map.2 ⟨p, List.mem_filter.2 ⟨hp, by simp [hp2]⟩, rfl⟩)
    · exact hall2 ho p (List.mem_filter.2 ⟨hp, by simp [hp2]⟩)
  have hgs := (runGroups_quiet E hq text env _).2 hall
  unfold parseOwn
  rw [hgs, ok_bind]
  dsimp only
  have hzip : ((((groups.map (fun g => (g.1, g.2.map (Slot.obj (O := Outputter))))).map (·.1)).map (rawOf E env text)).zip
      ((groups.map (fun g => (g.1, g.2.map (Slot.obj (O := Outputter))))).map (·.2))) =
      groups.map (fun g => (rawOf E env text g.1, g.2.map (Slot.obj (O := Outputter)))) := by
    simp only [List.map_map]
    rw [List.zip_map']
    rfl
  rw [hzip]
  -- the others
  have hglob : ((List.filter (fun p => decide (p.2 = [])) (List.filter (fun p => !p.1.isEmpty)
      (groups.map (fun g => (rawOf E env text g.1, g.2.map (Slot.obj (O := Outputter))))))).map (fun p => (sortRaw p.1).map (fun kv => kv.2.map (toHit env)))) =
      ((((groups.filter (fun g => decide (g.2 = []))).map (·.1)).map (rawOf E env text)).filter (fun r => !r.isEmpty)).map
        (fun r => (sortRaw r).map (fun kv => kv.2.map (toHit env))) := by
    clear hm hr1 e2 hall hgs hzip ho hall2
    induction groups with
    | nil => rfl
    | cons g gs ih =>
      rw [List.map_cons, List.filter_cons, List.filter_cons]
      by_cases h1 : g.2 = [] <;> by_cases h2 : (rawOf E env text g.1).isEmpty = true <;>
        simp [h1, h2, ih, -List.filter_filter, -List.map_map]
  rw [hglob, hm, ok_bind]
  have hke := makeResults_quiet E hq vtr env _ main ms hm
  rw [hke]
  -- the groups with outputs
  have hown : List.filter (fun p => decide (p.2 ≠ [])) (List.filter (fun p => !p.1.isEmpty)
      (groups.map (fun g => (rawOf E env text g.1, g.2.map (Slot.obj (O := Outputter)))))) =
      ((groups.filter (fun g => decide (g.2 ≠ []))).map (fun g => (rawOf E env text g.1, g.2.map (Slot.obj (O := Outputter))))).filter (fun p => !p.1.isEmpty) := by
    clear hm hr1 e2 hall hgs hzip ho hall2 hglob
    induction groups with
    | nil => rfl
    | cons g gs ih =>
      rw [List.map_cons, List.filter_cons, List.filter_cons]
      by_cases h1 : g.2 = [] <;> by_cases h2 : (rawOf E env text g.1).isEmpty = true <;>
        simp_all [-List.filter_filter, -List.map_map]
  rw [hown]
  have hloop : ∀ {l : List (Grp × List Outputter)} {own : List (List Val)}, All2 (OwnResult E vtr tvars text env) l own →
      ∀ (acc : List Val), ownResults E vtr tvars (toHit env)
        ((l.map (fun g => (rawOf E env text g.1, g.2.map (Slot.obj (O := Outputter))))).filter (fun p => !p.1.isEmpty)) (gatherOwn d acc) env =
        .ok (gatherOwn d (acc ++ own.flatten), env) := by
    intro l own h
    induction h with
    | nil => intro acc; simp [ownResults, pure_ok]
    | @cons a b l own h _ ih =>
      intro acc
      cases h with
      | @none g outs h =>
        have e := runRe_quiet E hq text g env _ h
        simp only [Prod.mk.injEq] at e
        have hem : (rawOf E env text g).isEmpty = true := by rw [← e.2]; rfl
        simp only [List.map_cons, List.filter_cons, hem, Bool.not_true, Bool.false_eq_true, if_false]
        rw [ih acc]
        simp
      | @some g outs outs' ms1 v hmt hp hr =>
        obtain ⟨raw, h1, h2⟩ := hmt
        have e := runRe_quiet E hq text g env _ h1
        simp only [Prod.mk.injEq, true_and] at e
        subst e
        have hem : (rawOf E env text g).isEmpty = false := by
          cases hh : rawOf E env text g with
          | nil => exact absurd hh h2
          | cons _ _ => rfl
        simp only [parseText, bind_ok_iff] at hp
        obtain ⟨r1, hr1, hp⟩ := hp
        obtain ⟨e1, _⟩ := (runGroups_quiet E hq text env _).1 r1 hr1
        subst e1
        simp only [List.map_cons, List.map_nil, List.filter_cons, hem, Bool.not_false, if_true, List.filter_nil] at hp
        have hke1 := makeResults_quiet E hq vtr env _ _ ms1 hp
        have happ : appendResult (gatherOwn d acc) v = .ok (gatherOwn d (acc ++ [v])) := by
          unfold gatherOwn
          by_cases ha : acc = []
          · subst ha
            cases d with
            | nil => simp [appendResult, pure_ok]
            | cons kv d => simp [appendResult, pure_ok]
          · simp [ha, appendResult, pure_ok]
        simp only [List.map_cons, List.filter_cons, hem, Bool.not_false, if_true, ownResults, hp, ok_bind, runSlots_objs E tvars outs outs' _ _ hr, happ, hke1]
        rw [ih (acc ++ [v])]
        simp
  have := hloop ho []
  rw [List.nil_append] at this
  rw [hd, ← this]
  rfl

/-! ## The hypotheses are met -/

/-- an output that hands its data on -/
def Ex.outS : Outputter := ⟨some c!"keep", [], c!"raw", [c!"self"], none, false⟩
/-- a second group -/
def Ex.grpM : Grp := .mk ⟨0, (c!"mtus", 0), none, [c!"mtus"], [], []⟩ [Ex.lineOf .start c!" mtu {{ mtu }}"] [] [] false []
/-- a group without matches -/
def Ex.grpZ : Grp := .mk ⟨0, (c!"zones", 0), none, [c!"zones"], [], []⟩ [Ex.lineOf .start c!"zone {{ zone }}"] [] [] false []
/-- the groups, two with outputs -/
def Ex.ownGroups : List (Grp × List Outputter) := [(Ex.grpZ, [Ex.outS]), (Ex.grpI, []), (Ex.grpM, [Ex.outS])]

theorem eng0_quiet : Ex.eng0.Quiet := by
  constructor
  · intro f env v env' v' fl h
    simp [Ex.eng0, Ex.mf0, pure_ok] at h
    simp [h.1]
  · intro f ms v ms' v' fl h
    simp [Ex.eng0, Ex.gf0, pure_ok] at h
    simp [← h.1]

/-- results of a parse -/
def Ex.got (r : PyM MS) : Option Val := r.toOption.map (·.results)

theorem got_some {r : PyM MS} {v : Val} (h : Ex.got r = some v) : ∃ ms, r = .ok ms ∧ ms.results = v := by
  cases r with
  | error e => simp [Ex.got, Except.toOption] at h
  | ok ms => exact ⟨ms, rfl, by simpa [Ex.got, Except.toOption] using h⟩

example : ∃ (ms : MS) (d : Dict Key Val) (v : Val),
    parseText Ex.eng0.mf Ex.eng0.gf Ex.eng0.toInt [] ((Ex.ownGroups.filter (fun g => decide (g.2 = []))).map (·.1)) Ex.text1 Ex.env0 (.dict []) = .ok ms ∧
    ms.results = .dict d ∧ d ≠ [] ∧
    All2 (OwnResult Ex.eng0 [] [] Ex.text1 Ex.env0) (Ex.ownGroups.filter (fun g => decide (g.2 ≠ []))) [[], [v]] := by
  obtain ⟨ms, h1, h2⟩ := got_some (r := parseText Ex.eng0.mf Ex.eng0.gf Ex.eng0.toInt []
    ((Ex.ownGroups.filter (fun (g : Grp × List Outputter) => decide (g.2 = []))).map (fun (g : Grp × List Outputter) => g.1)) Ex.text1 Ex.env0 (.dict []))
    (v := .dict [(.s c!"interfaces", .list [
      .dict [(.s c!"mtu", .str c!"1"), (.s c!"name", .str c!"a"), (.s c!"ips", .list [.dict [(.s c!"ip", .str c!"1")]])],
      .dict [(.s c!"name", .str c!"b"), (.s c!"mtu", .str c!"1500"), (.s c!"ips", .list [.dict [(.s c!"ip", .str c!"2")]])]])]) (by decide +kernel)
  obtain ⟨ms', h3, h4⟩ := got_some (r := parseText Ex.eng0.mf Ex.eng0.gf Ex.eng0.toInt [] [Ex.grpM] Ex.text1 Ex.env0 (.dict []))
    (v := .dict [(.s c!"mtus", .dict [(.s c!"mtu", .str c!"1")])]) (by decide +kernel)
  have hz : (rawOf Ex.eng0 Ex.env0 Ex.text1 Ex.grpZ) = [] := by decide +kernel
  have hz' : (runRe Ex.eng0.mf Ex.text1 Ex.grpZ 0 none Ex.env0 []).toOption.isSome = true := by decide +kernel
  have hm : (rawOf Ex.eng0 Ex.env0 Ex.text1 Ex.grpM).isEmpty = false := by decide +kernel
  have hm' : (runRe Ex.eng0.mf Ex.text1 Ex.grpM 0 none Ex.env0 []).toOption.isSome = true := by decide +kernel
  have run : ∀ g, (runRe Ex.eng0.mf Ex.text1 g 0 none Ex.env0 []).toOption.isSome = true →
      runRe Ex.eng0.mf Ex.text1 g 0 none Ex.env0 [] = .ok (Ex.env0, rawOf Ex.eng0 Ex.env0 Ex.text1 g) := by
    intro g h
    cases hr : runRe Ex.eng0.mf Ex.text1 g 0 none Ex.env0 [] with
    | error e => rw [hr] at h; cases h
    | ok r => rw [runRe_quiet _ eng0_quiet _ _ _ _ hr]
  refine ⟨ms, _, .dict [(.s c!"mtus", .dict [(.s c!"mtu", .str c!"1")])], h1, h2, by simp, ?_⟩
  have e : Ex.ownGroups.filter (fun g => decide (g.2 ≠ [])) = [(Ex.grpZ, [Ex.outS]), (Ex.grpM, [Ex.outS])] := by
    simp [Ex.ownGroups]
  rw [e]
  refine .cons (.none ?_) (.cons (.some (outs' := [{ Ex.outS with selfFlag := true }]) ⟨_, run _ hm', ?_⟩ h3 ?_) .nil)
  · rw [run _ hz', hz]
  · intro h; rw [h] at hm; cases hm
  · rw [h4]; decide +kernel

/-- C98, a limit: an `output` attribute that lists two names the template does not have makes the parser fail with `AttributeError` as soon as
the group matches: only the first name is removed. -/
theorem C98_two_unknown_outputs :
    (updateGroups (O := Outputter) (fun o => o.name.getD []) [] [] [[c!"a", c!"b"]]).2.2 = [[.name c!"b"]] ∧
    parseOwn Ex.eng0 [] [] [(Ex.grpM, [.name c!"b"])] Ex.text1 Ex.env0 (.dict []) = .error .attributeError := by
  refine ⟨by decide, ?_⟩
  have : (match parseOwn Ex.eng0 [] [] [(Ex.grpM, [.name c!"b"])] Ex.text1 Ex.env0 (.dict []) with | .error e => some e | .ok _ => none) =
    some .attributeError := by decide +kernel
  cases h : parseOwn Ex.eng0 [] [] [(Ex.grpM, [.name c!"b"])] Ex.text1 Ex.env0 (.dict []) with
  | error e => rw [h] at this; cases this; rfl
  | ok r => rw [h] at this; cases this
/-- C98, a limit: with `results="per_template"` the results of a second text land in the separate result a group with own outputs made of the
first text (after `parse` of the first text the main results are a list, and results are saved into the last item of a list). -/
theorem C98_per_template_mixes :
    ((do let r ← parseOwn Ex.eng0 [] [] [(Ex.grpI, []), (Ex.grpM, [.obj Ex.outS])] (dataText c!"interface a\n mtu 1") Ex.env0 (.dict [])
         let r' ← parseOwn Ex.eng0 [] [] [(Ex.grpI, []), (Ex.grpM, [.obj Ex.outS])] (dataText c!"interface b") r.2 r.1
         pure (r.1, r'.1)) : PyM (Val × Val)).toOption =
    some (.list [.dict [(.s c!"interfaces", .list [.dict [(.s c!"mtu", .str c!"1"), (.s c!"name", .str c!"a")]])],
                 .dict [(.s c!"mtus", .dict [(.s c!"mtu", .str c!"1")])]],
          .list [.dict [(.s c!"interfaces", .list [.dict [(.s c!"mtu", .str c!"1"), (.s c!"name", .str c!"a")]])],
                 .dict [(.s c!"mtus", .dict [(.s c!"mtu", .str c!"1")]),
                        (.s c!"interfaces", .list [.dict [(.s c!"name", .str c!"b"), (.s c!"mtu", .str c!"1500")]])]]) := by
  decide +kernel

end Props
