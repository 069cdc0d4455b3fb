import Verif.Props.Tags
import Verif.Props.Tree
/-!
# C93: from the template element to the results, through the calls of the parser object
-/

set_option synthInstance.maxSize 4000

namespace Props
open Py Spec TTP

/-! ### loading -/

theorem loadTops_tree (ctx : LoadCtx) (id : List Str → GId) (index uid : Nat) (tops : List TGroup) (hT : groupsOK tops) (hid : IdsAll id [] index tops) :
    ∃ gs, loadGroups ctx c!"." index uid (xmls tops) = .ok gs ∧ loadTops ctx c!"." index uid (xmls tops) = .ok (gs.map (fun g => (g, []))) ∧
      gs.map (·.index) = List.range' index tops.length ∧ ∀ g ∈ gs, g.inputs = [] := by
  induction tops generalizing index uid with
  | nil => exact ⟨[], by simp [xmls, loadGroups, pure_ok], by simp [xmls, loadTops, pure_ok], rfl, by simp⟩
  | cons T tops ih =>
    obtain ⟨h1, _, h2⟩ := hT
    obtain ⟨hi1, hi2⟩ := hid
    obtain ⟨G, name, u1, e1, hb1⟩ := loadGroup_tree ctx id true [] none index uid T h1 hi1 (by simp)
    obtain ⟨gs, e2, e3, e4, e5⟩ := ih (index + 1) u1 h2 hi2
    refine ⟨⟨index, name, [], G⟩ :: gs, ?_, ?_, ?_, ?_⟩
    · simp only [List.map_nil] at e1
      simp only [xmls, loadGroups, e1, ok_bind, e2, pure_ok]
    · simp only [List.map_nil] at e1
      simp only [xmls, loadTops, e1, ok_bind, e3, pure_ok, List.map_cons]
    · simp only [List.map_cons, e4, List.length_cons, List.range'_succ]
    · intro g hg
      rcases List.mem_cons.1 hg with e | hg
      · subst e; rfl
      · exact e5 g hg

theorem inputGroups_all (gs : List TopGroup) (k : Nat) (hi : gs.map (·.index) = List.range k) (hn : ∀ g ∈ gs, g.inputs = []) (n : Str) :
    inputGroups gs n [c!"all"] = List.range k := by
  have hm : ∀ x, x ∈ inputGroups gs n [c!"all"] ↔ x ∈ List.range k := by
    intro x
    rw [mem_inputGroups, ← hi, List.mem_map]
    constructor
    · rintro (⟨g, a, b, c⟩ | ⟨_, g, a, b, c⟩)
      · exact ⟨g, a, b⟩
      · exact ⟨g, a, b⟩
    · rintro ⟨g, a, b⟩
      right
      refine ⟨fun g hg => by simp [hn g hg], g, a, b, hn g a, by simp⟩
  have h1 := inputGroups_lt gs n [c!"all"]
  have h2 : (List.range k).Pairwise (· < ·) := List.pairwise_lt_range
  exact List.Perm.eq_of_pairwise (by intro a b _ _ h1 h2; omega) h1 h2
    ((List.perm_ext_iff_of_nodup (h1.imp (by intro a b h; omega)) (h2.imp (by intro a b h; omega))).2 hm)

theorem updateGroups_none (nm : Outputter → Str) (ns : List (List Str)) (h : ∀ n ∈ ns, n = []) : (updateGroups nm [] [] ns).1 = [] := by
  induction ns with
  | nil => rfl
  | cons n ns ih =>
    have := h n (by simp)
    subst this
    simp only [updateGroups, slotsLoop]
    exact ih (fun n hn => h n (by simp [hn]))

/-! ### inputs -/

/-- one more text of an input -/
def push (d : Dict Str (List Str)) (q : Str × Str) : Dict Str (List Str) :=
  Dict.set d q.1 (let old := (Dict.get? d q.1).getD []; if q.2 ∈ old then old else old ++ [q.2])

/-- inputs with texts for all groups -/
def inputsOf (k : Nat) (d : Dict Str (List Str)) : Dict Str TInput :=
  d.map (fun i => (i.1, ⟨i.2.map (fun d => ⟨.text, .str d⟩), List.range k, [], .dict []⟩))

theorem get?_inputsOf (k : Nat) (d : Dict Str (List Str)) (n : Str) :
    Dict.get? (inputsOf k d) n = (Dict.get? d n).map (fun i => ⟨i.map (fun d => ⟨.text, .str d⟩), List.range k, [], .dict []⟩) := by
  induction d with
  | nil => rfl
  | cons a d ih =>
    obtain ⟨m, v⟩ := a
    simp only [inputsOf, List.map_cons, Dict.get?_cons] at ih ⊢
    split
    · rfl
    · exact ih

theorem set_inputsOf (k : Nat) (d : Dict Str (List Str)) (n : Str) (l : List Str) :
    Dict.set (inputsOf k d) n ⟨l.map (fun d => ⟨.text, .str d⟩), List.range k, [], .dict []⟩ = inputsOf k (Dict.set d n l) := by
  induction d with
  | nil => rfl
  | cons a d ih =>
    obtain ⟨m, v⟩ := a
    simp only [inputsOf, List.map_cons, Dict.set] at ih ⊢
    split
    · rfl
    · rw [List.map_cons, ← ih]

theorem loadData_text (old : List Str) (s : Str) :
    loadData (old.map (fun d => (⟨.text, .str d⟩ : Datum))) [⟨.text, .str s⟩] =
      (if s ∈ old then old else old ++ [s]).map (fun d => (⟨.text, .str d⟩ : Datum)) := by
  simp only [loadData, List.foldl_cons, List.foldl_nil]
  have : ((⟨.text, .str s⟩ : Datum) ∈ old.map (fun d => (⟨.text, .str d⟩ : Datum))) ↔ s ∈ old := by
    simp
  by_cases h : s ∈ old
  · rw [if_pos (this.2 h), if_pos h]
  · rw [if_neg (fun e => h (this.1 e)), if_neg h]; simp

theorem putInput_push (E : Engine) (k : Nat) (d : Dict Str (List Str)) (n s : Str)
    (hE : Dict.get? d n = none ∨ E.setOrder (List.range k ++ List.range k) = List.range k) :
    putInput E (inputsOf k d) n ⟨[⟨.text, .str s⟩], List.range k, [], .dict []⟩ = inputsOf k (push d (n, s)) := by
  unfold putInput push
  rw [get?_inputsOf]
  cases h : Dict.get? d n with
  | none =>
    simp only [Option.map_none, Option.getD_none, List.not_mem_nil, if_false, List.nil_append]
    exact set_inputsOf k d n [s]
  | some old =>
    have hE : E.setOrder (List.range k ++ List.range k) = List.range k := by
      rcases hE with hE | hE
      · rw [h] at hE; simp at hE
      · exact hE
    simp only [Option.map_some, Option.getD_some, hE, loadData_text]
    exact set_inputsOf k d n _

theorem updateInput_put (E : Engine) (t : Tpl) (ds : List Datum) (n : Str) (names : List Str) :
    updateInput E t ds n names = { t with inputs := putInput E t.inputs n ⟨loadData [] ds, inputGroups t.groups n names, [], .dict []⟩ } := by
  unfold updateInput putInput
  cases Dict.get? t.inputs n <;> rfl

theorem push_get (l : List (Str × Str)) (d : Dict Str (List Str)) (n : Str) :
    Dict.get? (l.foldl push d) n = if Dict.get? d n = none ∧ n ∉ l.map (·.1) then none else
      some ((Dict.get? d n).getD [] ++ (((l.filter (fun q => decide (q.1 = n))).map (·.2)).removeAll ((Dict.get? d n).getD [])).eraseDups) := by
  induction l generalizing d with
  | nil => cases h : Dict.get? d n <;> simp [h, List.removeAll]
  | cons q l ih =>
    obtain ⟨m, s⟩ := q
    rw [List.foldl_cons, ih]
    unfold push
    dsimp only
    rw [Dict.get?_set]
    by_cases hm : m = n
    · subst hm
      simp only [if_true, reduceCtorEq, false_and, if_false, List.map_cons, List.mem_cons, true_or, not_true_eq_false, and_false, Option.getD_some]
      rw [List.filter_cons_of_pos (by simp), List.map_cons]
      congr 1
      generalize (Dict.get? d m).getD [] = old
      generalize (l.filter (fun q => decide (q.1 = m))).map (·.2) = xs
      by_cases hs : s ∈ old
      · rw [if_pos hs]
        congr 2
        simp [List.removeAll, hs]
      · rw [if_neg hs, List.append_assoc]
        congr 1
        have e : (s :: xs).removeAll old = s :: xs.removeAll old := by simp [List.removeAll, hs]
        rw [e, eraseDups_cons_removeAll, List.singleton_append]
        congr 2
        simp only [List.removeAll, List.filter_filter]
        apply List.filter_congr
        intro a _
        simp only [List.elem_eq_mem, List.mem_append, List.mem_singleton, Bool.decide_or, Bool.not_or, Bool.and_comm]
    · have hm' : ¬ n = m := fun e => hm e.symm
      simp only [hm, if_false, List.map_cons, List.mem_cons, hm', false_or]
      rw [List.filter_cons_of_neg (by simp [hm])]

theorem push_keys (l : List (Str × Str)) (d : Dict Str (List Str)) :
    Dict.keys (l.foldl push d) = Dict.keys d ++ ((l.map (·.1)).removeAll (Dict.keys d)).eraseDups := by
  induction l generalizing d with
  | nil => simp [List.removeAll]
  | cons q l ih =>
    rw [List.foldl_cons, ih]
    unfold push
    by_cases h : q.1 ∈ Dict.keys d
    · rw [Dict.keys_set_of_mem _ _ _ h]
      congr 2
      simp [List.removeAll, h]
    · rw [Dict.keys_set_of_not_mem _ _ _ h, List.append_assoc]
      congr 1
      have : ((q :: l).map (·.1)).removeAll (Dict.keys d) = q.1 :: (l.map (·.1)).removeAll (Dict.keys d) := by
        simp [List.removeAll, h]
      rw [this, eraseDups_cons_removeAll, List.singleton_append]
      congr 2
      simp only [List.removeAll, List.filter_filter]
      apply List.filter_congr
      intro a _
      simp only [List.elem_eq_mem, List.mem_append, List.mem_singleton, Bool.decide_or, Bool.not_or, Bool.and_comm]

theorem push_WF (l : List (Str × Str)) (d : Dict Str (List Str)) (h : Dict.WF d) : Dict.WF (l.foldl push d) := by
  induction l generalizing d with
  | nil => exact h
  | cons q l ih => exact ih _ (Dict.WF_set _ _ _ h)

theorem removeAll_none (l : List Str) : l.removeAll [] = l := by
  simp only [List.removeAll]
  exact List.filter_eq_self.2 (by simp)

theorem flatMap_dict (d : Dict Str (List Str)) (hw : Dict.WF d) : d.flatMap (·.2) = (Dict.keys d).flatMap (fun n => (Dict.get? d n).getD []) := by
  have : ∀ e : Dict Str (List Str), (∀ kv ∈ e, Dict.get? d kv.1 = some kv.2) →
      e.flatMap (·.2) = (Dict.keys e).flatMap (fun n => (Dict.get? d n).getD []) := by
    intro e
    induction e with
    | nil => intro _; rfl
    | cons a e ih =>
      intro h
      have h0 := h a (by simp)
      simp only [List.flatMap_cons, Dict.keys, List.map_cons, h0, Option.getD_some] at ih ⊢
      rw [ih (fun kv hkv => h kv (by simp [hkv]))]
  exact this d (fun kv hkv => Dict.get?_of_mem _ _ _ hw hkv)

theorem push_gathered (l : List (Str × Str)) : (l.foldl push []).flatMap (·.2) = gathered l := by
  rw [flatMap_dict _ (push_WF l [] List.Pairwise.nil), push_keys]
  unfold gathered
  have e : Dict.keys ([] : Dict Str (List Str)) = [] := rfl
  rw [e, removeAll_none, List.nil_append]
  have : ∀ ns : List Str, (∀ n ∈ ns, n ∈ l.map (·.1)) → ns.flatMap (fun n => (Dict.get? (l.foldl push []) n).getD []) =
      ns.flatMap (fun n => ((l.filter (fun q => decide (q.1 = n))).map (·.2)).eraseDups) := by
    intro ns
    induction ns with
    | nil => intro _; rfl
    | cons n ns ih =>
      intro h
      rw [List.flatMap_cons, List.flatMap_cons, ih (fun m hm => h m (by simp [hm])), push_get,
        if_neg (by rintro ⟨_, b⟩; exact b (h n (by simp)))]
      have e2 : (Dict.get? ([] : Dict Str (List Str)) n).getD [] = [] := rfl
      rw [e2, removeAll_none, Option.getD_some, List.nil_append]
  exact this _ (fun n hn => List.mem_eraseDups.1 hn)

theorem loadFiles_text (w : World) (s : Str) (h : NotAPath w s) : loadFiles w (.str s) = [⟨.text, .str s⟩] := by
  obtain ⟨h1, h2, h3, h4⟩ := h
  have h1' : startsWith s c!"ttp://" = false := by
    cases e : startsWith s c!"ttp://" with
    | false => rfl
    | true => exact absurd (by unfold startsWith at e; exact List.isPrefixOf_iff_prefix.1 e) h1
  unfold loadFiles
  dsimp only
  rw [h1', h2]
  simp only [Bool.false_eq_true, if_false]
  cases ht : w.templatesDir with
  | none => simp [h3]
  | some d =>
    rcases h4 d ht with e | e
    · subst e; simp [h3]
    · have : w.isFile (pathJoin d (s.take 5000)) = false := e
      simp [h3, this]

theorem getVarFunctions_none (C : TplCtx) (vars : Dict Str Val) (h : ∀ kv ∈ vars, ¬ Getter C kv.2) : getVarFunctions C vars = (vars, []) := by
  unfold getVarFunctions
  have h1 : vars.filter (fun kv => !isGetter C kv.2) = vars := by
    rw [List.filter_eq_self]
    intro kv hkv
    have := h kv hkv
    rw [← isGetter_iff] at this
    simpa using this
  have h2 : vars.filter (fun kv => isGetter C kv.2) = [] := by
    rw [List.filter_eq_nil_iff]
    intro kv hkv
    have := h kv hkv
    rw [← isGetter_iff] at this
    exact this
  rw [h1, h2]; rfl

theorem putTexts_push (E : Engine) (gs : List TopGroup) (k : Nat) (hgs : ∀ n, inputGroups gs n [c!"all"] = List.range k) (qs : List (Str × List Str × Str))
    (hall : ∀ q ∈ qs, q.2.1 = [c!"all"]) (d : Dict Str (List Str))
    (hE : (∀ q ∈ qs, Dict.get? d q.1 = none) ∧ (qs.map (·.1)).Nodup ∨ E.setOrder (List.range k ++ List.range k) = List.range k) :
    putTexts E gs qs (inputsOf k d) = inputsOf k ((qs.map (fun q => (q.1, q.2.2))).foldl push d) := by
  induction qs generalizing d with
  | nil => rfl
  | cons q qs ih =>
    have hq := hall q (by simp)
    have e : putTexts E gs (q :: qs) (inputsOf k d) = putTexts E gs qs (putInput E (inputsOf k d) q.1 (textInput gs q.1 q.2.1 q.2.2)) := rfl
    rw [e, hq]
    have e2 : textInput gs q.1 [c!"all"] q.2.2 = ⟨[⟨.text, .str q.2.2⟩], List.range k, [], .dict []⟩ := by
      unfold textInput; rw [hgs]
    rw [e2, putInput_push E k d q.1 q.2.2 (by
      rcases hE with ⟨a, _⟩ | hE
      · exact Or.inl (a q (by simp))
      · exact Or.inr hE), ih (fun r hr => hall r (by simp [hr]))]
    · rfl
    · rcases hE with ⟨a, b⟩ | hE
      · left
        simp only [List.map_cons, List.nodup_cons] at b
        refine ⟨?_, b.2⟩
        intro r hr
        unfold push
        dsimp only
        rw [Dict.get?_set_ne _ _ (by intro e; exact b.1 (e ▸ List.mem_map.2 ⟨r, hr, rfl⟩))]
        exact a r (by simp [hr])
      · exact Or.inr hE

theorem addInputs_push (E : Engine) (t : Tpl) (k : Nat) (hgs : ∀ n, inputGroups t.groups n [c!"all"] = List.range k) (tn : Str)
    (htn : tn = t.name ∨ tn = c!"_all_") (vars lookups gvars : Dict Str Val) (calls : List (Str × Str)) (hp : ∀ q ∈ calls, NotAPath E.world q.2)
    (d : Dict Str (List Str)) (ht : t.inputs = inputsOf k d)
    (hE : (∀ q ∈ calls, Dict.get? d q.1 = none) ∧ (calls.map (·.1)).Nodup ∨ E.setOrder (List.range k ++ List.range k) = List.range k) :
    addInputs ⟨[t], vars, lookups, gvars⟩ (calls.map (fun q => ⟨E, .str q.2, q.1, tn, []⟩)) =
      ⟨[{ t with inputs := inputsOf k (calls.foldl push d) }], vars, lookups, gvars⟩ := by
  induction calls generalizing d t with
  | nil => simp only [addInputs, List.map_nil, List.foldl_nil, ← ht]
  | cons q calls ih =>
    have hone : addInput E ⟨[t], vars, lookups, gvars⟩ (.str q.2) q.1 tn [] =
        ⟨[{ t with inputs := inputsOf k (push d q) }], vars, lookups, gvars⟩ := by
      unfold addInput
      rw [loadFiles_text _ _ (hp q (by simp))]
      have hs : selected tn t = true := by
        rw [selected_iff]
        rcases htn with e | e <;> simp [e]
      simp only [List.cons_ne_nil, if_false, List.map_cons, List.map_nil, hs, if_true]
      rw [updateInput_put, ht]
      have e2 : (⟨loadData [] [⟨.text, .str q.2⟩], inputGroups t.groups q.1 (orAll []), [], .dict []⟩ : TInput) =
          ⟨[⟨.text, .str q.2⟩], List.range k, [], .dict []⟩ := by
        have : orAll [] = [c!"all"] := rfl
        rw [this, hgs]; rfl
      rw [e2, putInput_push E k d q.1 q.2 (by
        rcases hE with ⟨a, _⟩ | hE
        · exact Or.inl (a q (by simp))
        · exact Or.inr hE)]
    have := ih { t with inputs := inputsOf k (push d q) } hgs htn (fun r hr => hp r (by simp [hr])) (push d q) rfl (by
      rcases hE with ⟨a, b⟩ | hE
      · left
        simp only [List.map_cons, List.nodup_cons] at b
        refine ⟨?_, b.2⟩
        intro r hr
        unfold push
        dsimp only
        rw [Dict.get?_set_ne _ _ (by intro e; exact b.1 (e ▸ List.mem_map.2 ⟨r, hr, rfl⟩))]
        exact a r (by simp [hr])
      · exact Or.inr hE)
    have e3 : addInputs ⟨[t], vars, lookups, gvars⟩ ((q :: calls).map (fun q => ⟨E, .str q.2, q.1, tn, []⟩)) =
        addInputs (addInput E ⟨[t], vars, lookups, gvars⟩ (.str q.2) q.1 tn []) (calls.map (fun q => ⟨E, .str q.2, q.1, tn, []⟩)) := rfl
    rw [e3, hone, this]
    rfl

/-- C93. From the template element to the results. A template with groups `name*` of plain lines (nested in any way) and input tags with
texts is loaded, texts are added with `add_input`, `parse` is called: the one result is the list of the meanings of the texts, for each
input in the order in which they are first named, the distinct texts of an input in order. (If an input is named twice, Python's set of
small numbers has to list them in order.) -/
theorem C93_end_to_end (C : TplCtx) (tops : List TGroup) (hT : groupsOK tops) (hap : NamesApart tops) (x : Xml) (qs : List (Str × List Str × Str))
    (hatt : Dict.WF x.attrib ∧ Dict.get? x.attrib c!"results" = none ∧ Dict.get? x.attrib c!"pathchar" = none)
    (hg : tagged [c!"g", c!"grp", c!"group"] x.children = xmls tops)
    (hi : All2 (fun x q => TextInput x q.1 q.2.1 q.2.2) (tagged [c!"i", c!"in", c!"input"] x.children) qs)
    (hall : ∀ q ∈ qs, q.2.1 = [c!"all"])
    (hother : DocsOk x.children ∧ tagged [c!"v", c!"vars", c!"variables"] x.children = [] ∧ tagged [c!"o", c!"out", c!"output"] x.children = [] ∧
      tagged [c!"lookup"] x.children = [] ∧ tagged [c!"template"] x.children = [])
    (vars lookups gvars : Dict Str Val) (hv : ∀ kv ∈ vars, ¬ Getter C kv.2) (bp name tn : Str)
    (htn : tn = (Dict.get? x.attrib c!"name").getD name ∨ tn = c!"_all_") (calls : List (Str × Str))
    (hp : ∀ q ∈ calls, NotAPath C.eng.world q.2)
    (hc : ∀ q ∈ qs.map (fun q => (q.1, q.2.2)) ++ calls, ClearIn tops q.2)
    (hE : ((qs.map (fun q => (q.1, q.2.2)) ++ calls).map (·.1)).Nodup ∨
      C.eng.setOrder (List.range tops.length ++ List.range tops.length) = List.range tops.length) :
    ∃ o1 o2 vs, addTemplateXml C ⟨[], vars, lookups, gvars⟩ bp name [] x = .ok o1 ∧
      parseOne C.eng (addInputs o1 (calls.map (fun q => ⟨C.eng, .str q.2, q.1, tn, []⟩))) = .ok o2 ∧
      All2 (MeansTree C.eng.toInt tops) (gathered (qs.map (fun q => (q.1, q.2.2)) ++ calls)) vs ∧
      resultList o2 [] = [.list vs] := by
  obtain ⟨tag, at_, text, cs, tail⟩ := x
  have ea : (Xml.mk tag at_ text cs tail).attrib = at_ := rfl
  have ec : (Xml.mk tag at_ text cs tail).children = cs := rfl
  rw [ea] at hatt htn
  rw [ec] at hg hi hother
  obtain ⟨hw, hr, hpc⟩ := hatt
  obtain ⟨hd, ho1, ho2, ho3, ho4⟩ := hother
  obtain ⟨gs, g1, g2, g3, g4⟩ := loadTops_tree { C.load with vars := vars } (idOf tops) 0 0 tops hT (ids_tops tops hT)
  rw [← List.range_eq_range'] at g3
  have hgs := inputGroups_all gs tops.length g3 g4
  have hlen : gs.length = tops.length := by
    have := congrArg List.length g3
    simpa using this
  -- loading
  have hnil : inputsOf tops.length [] = [] := rfl
  have hput : putTexts C.eng gs qs [] = inputsOf tops.length ((qs.map (fun q => (q.1, q.2.2))).foldl push []) := by
    rw [← hnil]
    exact putTexts_push C.eng gs _ hgs qs hall [] (by
      rcases hE with h | h
      · left
        refine ⟨fun q _ => rfl, ?_⟩
        rw [List.map_append, List.nodup_append] at h
        have := h.1
        rw [List.map_map] at this
        exact this
      · exact Or.inr h)
  have hload : addTemplateXml C ⟨[], vars, lookups, gvars⟩ bp name [] (.mk tag at_ text cs tail) =
      .ok ⟨[⟨(Dict.get? at_ c!"name").getD name, gs, inputsOf tops.length ((qs.map (fun q => (q.1, q.2.2))).foldl push []), vars, [], [], [], [],
        c!"per_input", .list []⟩], vars, lookups, gvars⟩ := by
    rw [addTemplateXml, loadTpl_eq, if_neg (by simp), if_pos hd, ho4, loadTpls_nil, ok_bind]
    have hin := loadInputs_text C gs ((Dict.get? at_ c!"base_path").getD bp) _ qs hi []
    have hfm : gs.flatMap (·.inputs) = [] := by
      rw [List.flatMap_eq_nil_iff]; exact g4
    have hm1 : (gs.map (fun g => (g, ([] : List Str)))).map (·.1) = gs := by simp [List.map_map, Function.comp_def]
    have hrest : loadRest C vars (tplAttrs at_ ⟨name, bp, c!"per_input", c!"."⟩) (tagsOf cs) =
        .ok (⟨(Dict.get? at_ c!"name").getD name, gs, inputsOf tops.length ((qs.map (fun q => (q.1, q.2.2))).foldl push []), vars, [], [], [], [],
        c!"per_input", .list []⟩, (updateGroups (fun o : Outputter => o.name.getD []) [] [] ((gs.map (fun g => (g, ([] : List Str)))).map (·.2))).2.2) := by
      rw [tplAttrs_get at_ hw, hr, hpc]
      unfold loadRest tagsOf
      simp only [ho1, ho2, ho3, hg, parseVarsAll, loadOutputs, parseLookups, pure_ok, ok_bind, Option.getD_none, g2, hm1, hin, hfm, groupInputs, hput,
        getVarFunctions_none C vars hv]
      rw [updateGroups_none _ _ (by intro n hn; simp at hn; exact hn.2)]
    rw [hrest, ok_bind, ok_bind]
    simp [TplNode.templates, TplNode.tpl]
  -- inputs
  have hadd := addInputs_push C.eng ⟨(Dict.get? at_ c!"name").getD name, gs, inputsOf tops.length ((qs.map (fun q => (q.1, q.2.2))).foldl push []), vars,
    [], [], [], [], c!"per_input", .list []⟩ tops.length hgs tn htn vars lookups gvars calls hp _ rfl (by
      rcases hE with h | h
      · left
        rw [List.map_append, List.nodup_append] at h
        refine ⟨?_, h.2.1⟩
        intro q hq
        rw [push_get, if_pos]
        refine ⟨rfl, ?_⟩
        intro hm
        exact h.2.2 q.1 hm q.1 (List.mem_map.2 ⟨q, hq, rfl⟩) rfl
      · exact Or.inr h)
  -- parsing
  rw [← List.foldl_append] at hadd
  have hmem : ∀ i ∈ (qs.map (fun q => (q.1, q.2.2)) ++ calls).foldl push [], ∀ s ∈ i.2, ClearIn tops s := by
    intro i hi s hs
    have : s ∈ gathered (qs.map (fun q => (q.1, q.2.2)) ++ calls) := by
      rw [← push_gathered]; exact List.mem_flatMap.2 ⟨i, hi, hs⟩
    unfold gathered at this
    obtain ⟨n, _, hn⟩ := List.mem_flatMap.1 this
    rw [List.mem_eraseDups] at hn
    obtain ⟨q, hq, e⟩ := List.mem_map.1 hn
    rw [← e]
    exact hc q (List.mem_filter.1 hq).1
  obtain ⟨o2, vs, e1, e2, e3⟩ := C87_object { C.load with vars := vars } C.eng tops hT hap gs g1 ((Dict.get? at_ c!"name").getD name) vars gvars [] vars
    lookups ((qs.map (fun q => (q.1, q.2.2)) ++ calls).foldl push []) hmem
  rw [push_gathered] at e2
  rw [hlen] at e1
  refine ⟨_, o2, vs, hload, ?_, e2, ?_⟩
  · rw [hadd]; exact e1
  · unfold resultList pick
    rw [if_pos rfl]; exact e3

/-- template of the example: the two groups, an input tag with the text -/
def Ex.tree2 : Xml := Ex.root (xmls Ex.wtops ++ [Ex.tagI c!"in" Ex.wtext2])

/-- the hypotheses are met: the text of the input tag, then the same text in a second input -/
example : ∃ o1 o2 vs, addTemplateXml Ex.tctx Ex.objE [] c!"t" [] Ex.tree2 = .ok o1 ∧
    parseOne Ex.eng0 (addInputs o1 [⟨Ex.eng0, .str Ex.wtext2, c!"other", c!"_all_", []⟩]) = .ok o2 ∧
    All2 (MeansTree false Ex.wtops) [Ex.wtext2, Ex.wtext2] vs ∧ resultList o2 [] = [.list vs] := by
  have hg : gathered [(c!"in", Ex.wtext2), (c!"other", Ex.wtext2)] = [Ex.wtext2, Ex.wtext2] := by decide
  rw [← hg]
  refine C93_end_to_end Ex.tctx Ex.wtops Ex.wtops_ok Ex.wtops_apart Ex.tree2 [(c!"in", [c!"all"], Ex.wtext2)]
    ⟨by unfold Dict.WF; decide, by decide, by decide⟩ rfl
    (.cons ⟨by decide, by unfold Dict.WF; decide, by decide, ⟨c!"text", by decide, by decide⟩, by decide, rfl, by decide⟩ .nil)
    (by simp) ⟨?_, rfl, rfl, rfl, rfl⟩ [(c!"a", .int 1), (c!"b", .int 2)] [] [] ?_ [] c!"t" c!"_all_" (Or.inr rfl) [(c!"other", Ex.wtext2)] ?_ ?_
    (Or.inl (by decide))
  · intro x hx
    have : x.text ≠ none := by
      have hall : Ex.tree2.children.all (fun x => x.text.isSome) = true := by decide
      have := List.all_eq_true.1 hall x hx
      intro e; rw [e] at this; simp at this
    intro _; exact this
  · rintro kv hkv ⟨f, e, _⟩
    simp at hkv
    rcases hkv with rfl | rfl <;> simp at e
  · intro q hq
    simp at hq
    subst hq
    exact ⟨by decide, rfl, rfl, by intro d hd; cases hd⟩
  · intro q hq
    simp at hq
    rcases hq with rfl | rfl <;> exact Ex.wclear2

end Props
