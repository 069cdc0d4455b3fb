import Verif.Spec.Tags
import Verif.Proofs.Object
/-! # Lemmas about the loader of templates -/

namespace TTP
open Py Spec

/-! ### kinds of tags -/

theorem kind_vars (s : Str) : tagKind s = .vars ↔ lower s ∈ [c!"v", c!"vars", c!"variables"] := by
  unfold tagKind; dsimp only
  by_cases h : lower s ∈ [c!"v", c!"vars", c!"variables"]
  · simp [h]
  · rw [if_neg h]; simp only [h, iff_false]
    repeat (first | split | simp)

theorem kind_group (s : Str) : tagKind s = .group ↔ lower s ∈ [c!"g", c!"grp", c!"group"] := by
  unfold tagKind; dsimp only
  constructor
  · intro h; repeat (first | (split at h) | assumption | (exact absurd h (by decide)))
  · intro h
    simp only [List.mem_cons, List.not_mem_nil, or_false] at h
    rcases h with h | h | h <;> rw [h] <;> decide

theorem kind_output (s : Str) : tagKind s = .output ↔ lower s ∈ [c!"o", c!"out", c!"output"] := by
  unfold tagKind; dsimp only
  constructor
  · intro h; repeat (first | (split at h) | assumption | (exact absurd h (by decide)))
  · intro h
    simp only [List.mem_cons, List.not_mem_nil, or_false] at h
    rcases h with h | h | h <;> rw [h] <;> decide

theorem kind_input (s : Str) : tagKind s = .input ↔ lower s ∈ [c!"i", c!"in", c!"input"] := by
  unfold tagKind; dsimp only
  constructor
  · intro h; repeat (first | (split at h) | assumption | (exact absurd h (by decide)))
  · intro h
    simp only [List.mem_cons, List.not_mem_nil, or_false] at h
    rcases h with h | h | h <;> rw [h] <;> decide

theorem kind_lookup (s : Str) : tagKind s = .lookup ↔ lower s ∈ [c!"lookup"] := by
  unfold tagKind; dsimp only
  constructor
  · intro h; repeat (first | (split at h) | (simp only [List.mem_singleton]; assumption) | (exact absurd h (by decide)))
  · intro h
    simp only [List.mem_cons, List.not_mem_nil, or_false] at h
    rw [h]; decide

theorem kind_template (s : Str) : tagKind s = .template ↔ lower s ∈ [c!"template"] := by
  unfold tagKind; dsimp only
  constructor
  · intro h; repeat (first | (split at h) | (simp only [List.mem_singleton]; assumption) | (exact absurd h (by decide)))
  · intro h
    simp only [List.mem_cons, List.not_mem_nil, or_false] at h
    rw [h]; decide

theorem kind_doc (s : Str) : tagKind s = .doc ↔ lower s = c!"doc" := by
  unfold tagKind; dsimp only
  constructor
  · intro h; repeat (first | (split at h) | assumption | (exact absurd h (by decide)))
  · intro h
    rw [h]; decide

/-- what the tags of a template are -/
def tagsOf (cs : List Xml) : Tags :=
  ⟨tagged [c!"v", c!"vars", c!"variables"] cs, tagged [c!"g", c!"grp", c!"group"] cs, tagged [c!"o", c!"out", c!"output"] cs,
   tagged [c!"i", c!"in", c!"input"] cs, tagged [c!"lookup"] cs, tagged [c!"template"] cs⟩

/-- tags one after the other -/
def Tags.add (a b : Tags) : Tags :=
  ⟨a.vars ++ b.vars, a.groups ++ b.groups, a.outputs ++ b.outputs, a.inputs ++ b.inputs, a.lookups ++ b.lookups, a.templates ++ b.templates⟩

theorem tagged_cons (names : List Str) (x : Xml) (cs : List Xml) :
    tagged names (x :: cs) = (if lower x.tag ∈ names then [x] else []) ++ tagged names cs := by
  unfold tagged
  by_cases h : lower x.tag ∈ names <;> simp [h]

theorem collectTags_eq (cs : List Xml) (t : Tags) (hd : DocsOk cs) : collectTags cs t = .ok (t.add (tagsOf cs)) := by
  induction cs generalizing t with
  | nil => simp [collectTags, tagsOf, tagged, Tags.add]
  | cons x xs ih =>
    have hd' : DocsOk xs := fun y hy => hd y (by simp [hy])
    have e1 := kind_vars x.tag
    have e2 := kind_group x.tag
    have e3 := kind_output x.tag
    have e4 := kind_input x.tag
    have e5 := kind_lookup x.tag
    have e6 := kind_template x.tag
    have e7 := kind_doc x.tag
    have ht : tagsOf (x :: xs) = (⟨if tagKind x.tag = .vars then [x] else [], if tagKind x.tag = .group then [x] else [],
        if tagKind x.tag = .output then [x] else [], if tagKind x.tag = .input then [x] else [], if tagKind x.tag = .lookup then [x] else [],
        if tagKind x.tag = .template then [x] else []⟩ : Tags).add (tagsOf xs) := by
      simp only [tagsOf, tagged_cons, Tags.add, e1, e2, e3, e4, e5, e6]
    rw [ht]
    cases hk : tagKind x.tag <;> simp only [collectTags, hk] <;>
      first
      | (rw [ih _ hd']; simp [Tags.add]; done)
      | (rw [if_neg (hd x List.mem_cons_self (e7.1 hk)), ih _ hd']; simp [Tags.add])

theorem collectTags_err (cs : List Xml) (t : Tags) (hd : ¬ DocsOk cs) : collectTags cs t = .error .typeError := by
  induction cs generalizing t with
  | nil => exact absurd (fun x hx => by simp at hx) hd
  | cons x xs ih =>
    by_cases hx : lower x.tag = c!"doc" ∧ x.text = none
    · have := (kind_doc x.tag).2 hx.1
      simp [collectTags, this, hx.2]
    · have hd' : ¬ DocsOk xs := by
        intro h; apply hd; intro y hy hl
        rcases List.mem_cons.1 hy with e | hy
        · subst e; intro hn; exact hx ⟨hl, hn⟩
        · exact h y hy hl
      cases hk : tagKind x.tag <;> simp only [collectTags, hk] <;>
        first
        | exact ih _ hd'
        | (rw [if_neg (fun e => hx ⟨(kind_doc x.tag).1 hk, e⟩)]; exact ih _ hd')

theorem loadTpls_tagged (C : TplCtx) (ov : Dict Str Val) (base : Str) (fs : List Str) (n : Nat) (cs : List Xml) :
    loadTpls C ov base fs n cs = loadTpls C ov base fs n (tagged [c!"template"] cs) := by
  induction cs generalizing n with
  | nil => rfl
  | cons x xs ih =>
    rw [tagged_cons]
    by_cases h : lower x.tag ∈ [c!"template"]
    · have hk := (kind_template x.tag).2 h
      rw [if_pos h, List.singleton_append, loadTpls, loadTpls]
      simp only [ih]
    · have hk : tagKind x.tag ≠ .template := fun e => h ((kind_template x.tag).1 e)
      rw [if_neg h, List.nil_append, loadTpls, if_pos hk, ih]

instance (cs : List Xml) : Decidable (DocsOk cs) := by unfold DocsOk; infer_instance

theorem loadTpl_eq (C : TplCtx) (ov : Dict Str Val) (a0 : TAttrs) (fs : List Str) (tag : Str) (at_ : Dict Str Str) (text tail : Option Str)
    (cs : List Xml) :
    loadTpl C ov a0 fs (.mk tag at_ text cs tail) =
      if fs ≠ [] ∧ (tplAttrs at_ a0).name ∉ fs then
        (loadRest C ov (tplAttrs at_ a0) ⟨[], [], [], [], [], []⟩ >>= fun r => .ok (.mk r.1 []))
      else if DocsOk cs then
        (loadTpls C ov (tplAttrs at_ a0).base fs 0 (tagged [c!"template"] cs) >>= fun ts =>
          loadRest C ov (tplAttrs at_ a0) (tagsOf cs) >>= fun r => .ok (.mk r.1 ts))
      else .error .typeError := by
  rw [loadTpl]
  dsimp only
  split
  · rfl
  · split
    · rename_i hd
      rw [collectTags_eq cs _ hd, ok_bind, loadTpls_tagged]
      have : (⟨[], [], [], [], [], []⟩ : Tags).add (tagsOf cs) = tagsOf cs := by simp [Tags.add]
      rw [this]; rfl
    · rename_i hd
      rw [collectTags_err cs _ hd, err_bind]

theorem tplAttrs_get (at_ : Dict Str Str) (hw : Dict.WF at_) (a : TAttrs) :
    tplAttrs at_ a = ⟨(Dict.get? at_ c!"name").getD a.name, (Dict.get? at_ c!"base_path").getD a.base,
      (Dict.get? at_ c!"results").getD a.method, (Dict.get? at_ c!"pathchar").getD a.pathchar⟩ := by
  induction at_ generalizing a with
  | nil => rfl
  | cons kv rest ih =>
    obtain ⟨k, v⟩ := kv
    have hw' := (Dict.WF_cons k v rest).1 hw
    have hn := (Dict.get?_eq_none_iff rest k).2 hw'.1
    have ih := ih hw'.2
    unfold tplAttrs
    simp only [Dict.get?_cons]
    split
    · rename_i e; subst e
      rw [ih]; simp [hn]
    · split
      · rename_i e; subst e
        rw [ih]; simp [hn]
      · split
        · rename_i e; subst e
          rw [ih]; simp [hn]
        · split
          · rename_i e; subst e
            rw [ih]; simp [hn]
          · rename_i e1 e2 e3 e4
            rw [ih]

/-! ### variables -/

theorem strKeys_asVal (d : Dict Str Val) : strKeys (d.map (fun kv => (Key.s kv.1, kv.2))) = d := by
  induction d with
  | nil => rfl
  | cons kv d ih =>
    simp only [strKeys, List.map_cons, List.filterMap_cons] at ih ⊢
    rw [ih]

theorem get?_attrVals (a : Dict Str Str) (k : Str) : Dict.get? (attrVals a) k = (Dict.get? a k).map .str := by
  induction a with
  | nil => rfl
  | cons kv a ih =>
    obtain ⟨q, v⟩ := kv
    simp only [attrVals, List.map_cons, Dict.get?_cons] at ih ⊢
    split
    · rfl
    · exact ih

/-- the paths for variables after one more tag -/
def addPath (x : Xml) (d : Dict Str Val) (vtr : Dict Str (List Str)) : Dict Str (List Str) :=
  match Dict.get? x.attrib c!"name" with
  | none => vtr
  | some p => if d = [] then vtr else Dict.set vtr p ((Dict.get? vtr p).getD [] ++ Dict.keys d)

theorem parseVars_gives (C : TplCtx) (x : Xml) (d : Dict Str Val) (h : GivesVars C x d) (t : TVars) :
    parseVars C x t = .ok ⟨Dict.update t.vars d, addPath x d t.vtr⟩ := by
  have hl : (Dict.get? (attrVals x.attrib) c!"load").getD (.str c!"python") = .str ((Dict.get? x.attrib c!"load").getD c!"python") := by
    rw [get?_attrVals]; cases Dict.get? x.attrib c!"load" <;> rfl
  have hi : (Dict.get? (attrVals x.attrib) c!"include").getD .none = .none ↔ Dict.get? x.attrib c!"include" = none := by
    rw [get?_attrVals]; cases Dict.get? x.attrib c!"include" <;> simp
  rcases h with ⟨h1, h2, h3, h4⟩ | ⟨h1, hw, f, h2, h3⟩
  · subst h4
    have : loadStruct C x.text (attrVals x.attrib) = .ok .none := by
      unfold loadStruct; rw [hl]; dsimp only
      rw [if_pos ⟨h1, hi.2 h2⟩]; rfl
    have hn : Dict.has x.attrib c!"name" = false := (Dict.has_eq_false_iff _ _).2 ((Dict.get?_eq_none_iff _ _).1 h3)
    simp [parseVars, this, hn, addPath, h3, Val.truthy]
  · have : loadStruct C x.text (attrVals x.attrib) = .ok (asVal d) := by
      unfold loadStruct; rw [hl]; dsimp only
      rw [if_neg (by rintro ⟨a, b⟩; rcases h1 with h1 | h1; exact h1 a; exact h1 (hi.1 b))]
      unfold LoaderOf at h2
      rw [h2]; exact h3
    simp only [parseVars, this, ok_bind, asVal, strKeys_asVal, addPath]
    cases Dict.get? x.attrib c!"name" with
    | none => rfl
    | some p =>
      dsimp only
      split <;> rfl

theorem parseVarsAll_gives (C : TplCtx) (xs : List Xml) (ds : List (Dict Str Val)) (h : All2 (GivesVars C) xs ds) (t : TVars) :
    parseVarsAll C xs t = .ok ⟨ds.foldl Dict.update t.vars, (xs.zip ds).foldl (fun v q => addPath q.1 q.2 v) t.vtr⟩ := by
  induction h generalizing t with
  | nil => rfl
  | cons h1 _ ih => rw [parseVarsAll, parseVars_gives C _ _ h1, ok_bind, ih]; rfl

theorem foldl_update_get (ds : List (Dict Str Val)) (hw : ∀ d ∈ ds, Dict.WF d) (v : Dict Str Val) (k : Str) :
    Dict.get? (ds.foldl Dict.update v) k = (lastSet ds k).or (Dict.get? v k) := by
  induction ds generalizing v with
  | nil => simp [lastSet]
  | cons d ds ih =>
    rw [List.foldl_cons, ih (fun e he => hw e (by simp [he]))]
    have hl : lastSet (d :: ds) k = (lastSet ds k).or (Dict.get? d k) := by
      simp [lastSet, List.findSome?_append]
    rw [hl, Dict.get?_update _ _ (hw d (by simp))]
    cases lastSet ds k <;> cases Dict.get? d k <;> rfl

theorem foldl_update_WF (ds : List (Dict Str Val)) (v : Dict Str Val) (h : Dict.WF v) : Dict.WF (ds.foldl Dict.update v) := by
  induction ds generalizing v with
  | nil => exact h
  | cons d ds ih => exact ih _ (Dict.WF_update _ _ h)

theorem GivesVars_WF (C : TplCtx) (x : Xml) (d : Dict Str Val) (h : GivesVars C x d) : Dict.WF d := by
  rcases h with ⟨_, _, _, h⟩ | ⟨_, h, _⟩
  · subst h; exact List.Pairwise.nil
  · exact h

theorem foldl_addPath_get (q : List (Xml × Dict Str Val)) (v : Dict Str (List Str)) (p : Str) :
    (Dict.get? (q.foldl (fun v q => addPath q.1 q.2 v) v) p).getD [] =
      (Dict.get? v p).getD [] ++ (q.filter (fun q => decide (Dict.get? q.1.attrib c!"name" = some p))).flatMap (fun q => Dict.keys q.2) := by
  induction q generalizing v with
  | nil => simp
  | cons a q ih =>
    obtain ⟨x, d⟩ := a
    rw [List.foldl_cons, ih]
    unfold addPath
    cases hn : Dict.get? x.attrib c!"name" with
    | none => simp [hn]
    | some p' =>
      dsimp only
      by_cases hp : p' = p
      · subst hp
        by_cases hd : d = []
        · subst hd; simp [hn, Dict.keys]
        · rw [if_neg hd, Dict.get?_set_self]; simp [hn, List.append_assoc]
      · have : decide (Dict.get? x.attrib c!"name" = some p) = false := by simp [hn, hp]
        rw [List.filter_cons_of_neg (by simp [this])]
        congr 2
        split
        · rfl
        · rw [Dict.get?_set_ne _ _ hp]

theorem isGetter_iff (C : TplCtx) (v : Val) : isGetter C v = true ↔ Getter C v := by
  cases v <;> simp [isGetter, Getter]

theorem get?_filter {K V : Type} [DecidableEq K] (d : Dict K V) (hw : Dict.WF d) (p : V → Bool) (k : K) (v : V) :
    Dict.get? (List.filter (fun kv => p kv.2) d) k = some v ↔ Dict.get? d k = some v ∧ p v = true := by
  have hw' : Dict.WF (List.filter (fun kv => p kv.2) d) := by
    unfold Dict.WF Dict.keys at *
    exact hw.sublist (List.filter_sublist.map _)
  constructor
  · intro h
    have := Dict.mem_of_get? _ _ _ h
    rw [List.mem_filter] at this
    exact ⟨Dict.get?_of_mem _ _ _ hw this.1, this.2⟩
  · rintro ⟨h1, h2⟩
    exact Dict.get?_of_mem _ _ _ hw' (List.mem_filter.2 ⟨Dict.mem_of_get? _ _ _ h1, h2⟩)

theorem getVarFunctions_spec (C : TplCtx) (vars : Dict Str Val) (hw : Dict.WF vars) :
    (∀ k v, Dict.get? (getVarFunctions C vars).1 k = some v ↔ Dict.get? vars k = some v ∧ ¬ Getter C v) ∧
    (∀ k f, Dict.get? (getVarFunctions C vars).2 k = some f ↔ Dict.get? vars k = some (.str f) ∧ C.isVarFn f = true) := by
  constructor
  · intro k v
    unfold getVarFunctions
    rw [get?_filter vars hw (fun v => !isGetter C v) k v]
    rw [← isGetter_iff]
    simp
  · intro k f
    have hw' : Dict.WF (List.filter (fun kv => isGetter C kv.2) vars) := by
      unfold Dict.WF Dict.keys at *
      exact hw.sublist (List.filter_sublist.map _)
    have hm : ∀ (l : Dict Str Val), (∀ kv ∈ l, isGetter C kv.2 = true) → ∀ f,
        Dict.get? (l.map (fun kv => (kv.1, getterName kv.2))) k = some f ↔ Dict.get? l k = some (.str f) := by
      intro l
      induction l with
      | nil => intro _ f; simp [Dict.get?]
      | cons a l ih =>
        intro hl f
        obtain ⟨q, w⟩ := a
        have := hl _ List.mem_cons_self
        obtain ⟨s, hs, _⟩ := (isGetter_iff C w).1 this
        subst hs
        simp only [List.map_cons, Dict.get?_cons]
        split
        · simp [getterName]
        · exact ih (fun kv hkv => hl kv (by simp [hkv])) f
    unfold getVarFunctions
    dsimp only
    rw [hm _ (fun kv hkv => (List.mem_filter.1 hkv).2) f, get?_filter vars hw (fun v => isGetter C v) k]
    simp [isGetter]

/-! ### templates without templates inside -/

theorem loadTpls_nil (C : TplCtx) (ov : Dict Str Val) (base : Str) (fs : List Str) (n : Nat) : loadTpls C ov base fs n [] = .ok [] := rfl

theorem addTemplateXml_plain (C : TplCtx) (o o' : TTPObj) (bp name : Str) (x : Xml) (hno : tagged [c!"template"] x.children = [])
    (h : addTemplateXml C o bp name [] x = .ok o') :
    ∃ r, loadRest C o.vars (tplAttrs x.attrib ⟨name, bp, c!"per_input", c!"."⟩) (tagsOf x.children) = .ok r ∧
      o' = { o with templates := o.templates ++ [r.1] } := by
  obtain ⟨tag, at_, text, cs, tail⟩ := x
  rw [addTemplateXml, loadTpl_eq, if_neg (by simp)] at h
  simp only [Xml.children] at hno
  rw [hno, loadTpls_nil, ok_bind] at h
  split at h
  · rw [bind_ok_iff] at h
    obtain ⟨n, h1, h2⟩ := h
    rw [bind_ok_iff] at h1
    obtain ⟨r, h3, h4⟩ := h1
    simp only [Except.ok.injEq] at h4
    subst h4
    simp only [TplNode.templates, List.isEmpty_nil, if_true, TplNode.tpl, pure_ok, Except.ok.injEq] at h2
    exact ⟨r, h3, h2.symm⟩
  · simp at h

theorem loadRest_ok (C : TplCtx) (ov : Dict Str Val) (a : TAttrs) (t : Tags) (r : Tpl × List (List (Slot Outputter)))
    (h : loadRest C ov a t = .ok r) :
    ∃ tv outs ls tops ins, parseVarsAll C t.vars ⟨ov, []⟩ = .ok tv ∧ loadOutputs C t.outputs = .ok outs ∧
      parseLookups C t.lookups [] = .ok ls ∧ loadTops { C.load with vars := tv.vars } a.pathchar 0 0 t.groups = .ok tops ∧
      loadInputs C (tops.map (·.1)) a.base t.inputs [] = .ok ins ∧
      r.1 = ⟨a.name, tops.map (·.1), groupInputs C (tops.map (·.1)) a.base ((tops.map (·.1)).flatMap (·.inputs)) ins,
        (getVarFunctions C tv.vars).1, tv.vtr, (getVarFunctions C tv.vars).2, ls,
        (updateGroups (fun o : Outputter => o.name.getD []) outs [] (tops.map (·.2))).1, a.method, .list []⟩ := by
  unfold loadRest at h
  simp only [bind_ok_iff] at h
  obtain ⟨tv, h1, outs, h2, ls, h3, tops, h4, ins, h5, h6⟩ := h
  refine ⟨tv, outs, ls, tops, ins, h1, h2, h3, h4, h5, ?_⟩
  simp only [pure_ok, Except.ok.injEq] at h6
  rw [← h6]

/-! ### inputs -/

theorem strip_text : strip c!"text" = c!"text" := by decide

/-- an input of a tag with the text itself -/
def textInput (gs : List TopGroup) (n : Str) (names : List Str) (s : Str) : TInput :=
  ⟨[⟨.text, .str s⟩], inputGroups gs n names, [], .dict []⟩

theorem inAttrsWith_text (C : TplCtx) (gs : List TopGroup) (text : Option Str) (all : Dict Str Val) (nested : Dict Str Val → InSt → PyM InSt)
    (d : Dict Str Val) (hw : Dict.WF d) (n : Str) (names : List Str)
    (hk : ∀ k ∈ Dict.keys d, k ∈ [c!"name", c!"load", c!"groups"])
    (hn : ∀ v, Dict.get? d c!"name" = some v → ∃ t, v = .str t ∧ strip t = n)
    (hl : ∀ v, Dict.get? d c!"load" = some v → ∃ t, v = .str t ∧ strip t = c!"text")
    (hg : ∀ v, Dict.get? d c!"groups" = some v → groupNames v = .ok names) (s : InSt) (hs : s.name = n) :
    ∃ s', inAttrsWith C gs text all nested d s = .ok s' ∧ s'.name = n ∧ s'.functions = s.functions ∧ s'.parameters = s.parameters ∧
      s'.load = (if Dict.has d c!"load" then c!"text" else s.load) ∧
      s'.groups = (if Dict.has d c!"groups" then inputGroups gs n names else s.groups) := by
  induction d generalizing s with
  | nil => exact ⟨s, rfl, hs, rfl, rfl, rfl, rfl⟩
  | cons kv d ih =>
    obtain ⟨k, v⟩ := kv
    have hw' := (Dict.WF_cons k v d).1 hw
    have hnn := (Dict.get?_eq_none_iff d k).2 hw'.1
    have sub : ∀ q w, Dict.get? d q = some w → Dict.get? ((k, v) :: d) q = some w := by
      intro q w hq
      rw [Dict.get?_cons, if_neg]
      · exact hq
      · intro e; subst e; rw [hnn] at hq; exact absurd hq (by simp)
    have ih := ih hw'.2 (fun q hq => hk q (by simp only [Dict.keys, List.map_cons, List.mem_cons]; right; exact hq))
      (fun w hq => hn w (sub _ _ hq)) (fun w hq => hl w (sub _ _ hq)) (fun w hq => hg w (sub _ _ hq))
    have hk0 := hk k (by simp [Dict.keys])
    simp only [List.mem_cons, List.not_mem_nil, or_false] at hk0
    rw [inAttrsWith.eq_def]
    dsimp only
    have hh : ∀ q, Dict.has ((k, v) :: d) q = (decide (k = q) || Dict.has d q) := by
      intro q; unfold Dict.has; rw [Dict.get?_cons]
      by_cases e : k = q <;> simp [e]
    simp only [hh]
    rcases hk0 with e | e | e
    · subst e
      obtain ⟨t, ht, hst⟩ := hn v (by simp [Dict.get?_cons])
      subst ht
      rw [if_pos (by decide)]
      simp only [asText, pure_ok, ok_bind, hst]
      obtain ⟨s', h1, h2, h3, h4, h5, h6⟩ := ih { s with name := n } rfl
      exact ⟨s', h1, h2, h3, h4, by rw [h5]; rfl, by rw [h6]; rfl⟩
    · subst e
      obtain ⟨t, ht, hst⟩ := hl v (by simp [Dict.get?_cons])
      subst ht
      rw [if_neg (by decide), if_pos (by decide)]
      simp only [asText, pure_ok, ok_bind, hst, if_true]
      obtain ⟨s', h1, h2, h3, h4, h5, h6⟩ := ih { s with load := c!"text" } hs
      refine ⟨s', h1, h2, h3, h4, ?_, by rw [h6]; rfl⟩
      rw [h5]; simp
    · subst e
      have hgv := hg v (by simp [Dict.get?_cons])
      rw [if_neg (by decide), if_neg (by decide), if_pos (by decide), hgv, ok_bind, hs]
      obtain ⟨s', h1, h2, h3, h4, h5, h6⟩ := ih { s with name := n, groups := inputGroups gs n names } rfl
      refine ⟨s', h1, h2, h3, h4, by rw [h5]; rfl, ?_⟩
      rw [h6]; simp

theorem loadInput_text (C : TplCtx) (gs : List TopGroup) (base : Str) (x : Xml) (n : Str) (names : List Str) (s : Str)
    (h : TextInput x n names s) : loadInput C gs base x = .ok (n, textInput gs n names s) := by
  obtain ⟨hk, hw, hn, ⟨l, hl, hl2⟩, hg, ht, hs⟩ := h
  have hav : Dict.WF (attrVals x.attrib) := by
    unfold Dict.WF attrVals Dict.keys at *; rw [List.map_map]; exact hw
  have hkeys : Dict.keys (attrVals x.attrib) = Dict.keys x.attrib := by
    unfold attrVals Dict.keys; rw [List.map_map]; rfl
  have hla : Dict.get? (inputAttribs x.attrib) c!"load" = some (.str l) := by
    unfold inputAttribs
    rw [Dict.get?_setdefault, Dict.get?_setdefault, get?_attrVals, hl]; simp
  have hna : Dict.get? (inputAttribs x.attrib) c!"name" = (Dict.get? x.attrib c!"name").map .str := by
    unfold inputAttribs
    rw [Dict.get?_setdefault, Dict.get?_setdefault, get?_attrVals]; simp
  have hga : Dict.get? (inputAttribs x.attrib) c!"groups" = some (((Dict.get? x.attrib c!"groups").map Val.str).getD (.list [.str c!"all"])) := by
    unfold inputAttribs
    rw [Dict.get?_setdefault, Dict.get?_setdefault, get?_attrVals]
    cases Dict.get? x.attrib c!"groups" <;> simp
  have key := inAttrsWith_text C gs x.text (inputAttribs x.attrib) (fun d s => inAttrs C gs 999 (some []) d s) (inputAttribs x.attrib)
    (Dict.WF_setdefault _ _ _ (Dict.WF_setdefault _ _ _ hav)) n names
    (by
      intro k hk'
      have : Dict.get? (inputAttribs x.attrib) k ≠ none := fun e => (Dict.get?_eq_none_iff _ _).1 e hk'
      unfold inputAttribs at this
      rw [Dict.get?_setdefault, Dict.get?_setdefault] at this
      by_cases e1 : c!"load" = k
      · subst e1; decide
      · by_cases e2 : c!"groups" = k
        · subst e2; decide
        · have h3 : Dict.get? (attrVals x.attrib) k ≠ none := by
            intro e
            apply this
            simp [e1, e2, e]
          have h4 : k ∈ Dict.keys (attrVals x.attrib) := by
            apply Classical.byContradiction
            intro e; exact h3 ((Dict.get?_eq_none_iff _ _).2 e)
          rw [hkeys] at h4
          exact hk k h4)
    (by
      intro v hv
      rw [hna] at hv
      cases hq : Dict.get? x.attrib c!"name" with
      | none => rw [hq] at hv; simp at hv
      | some t =>
        rw [hq] at hv
        simp only [Option.map_some, Option.some.injEq] at hv
        exact ⟨t, hv.symm, by rw [hn, hq]; rfl⟩)
    (by intro v hv; rw [hla] at hv; simp only [Option.some.injEq] at hv; exact ⟨l, hv.symm, hl2⟩)
    (by
      intro v hv
      rw [hga] at hv
      simp only [Option.some.injEq] at hv
      subst hv
      rw [hg]
      cases Dict.get? x.attrib c!"groups" with
      | none => rfl
      | some g => rfl)
  unfold loadInput
  dsimp only
  rw [← hn]
  obtain ⟨s', h1, h2, h3, h4, h5, h6⟩ := key ⟨n, c!"python", [], [], [], [], [], .dict []⟩ rfl
  have e : inputFuel = 999 + 1 := rfl
  rw [e, inAttrs, h1, ok_bind]
  have hhl : Dict.has (inputAttribs x.attrib) c!"load" = true := by unfold Dict.has; rw [hla]; rfl
  have hhg : Dict.has (inputAttribs x.attrib) c!"groups" = true := by unfold Dict.has; rw [hga]; rfl
  rw [hhl, if_pos rfl] at h5
  rw [hhg, if_pos rfl] at h6
  obtain ⟨c, cs, hcs⟩ := List.exists_cons_of_ne_nil hs
  rw [ht, hcs]
  simp only [h5, if_true, pure_ok, ok_bind, h2, h3, h4, h6, textInput]

/-- inputs of text tags one after the other -/
def putTexts (E : Engine) (gs : List TopGroup) (qs : List (Str × List Str × Str)) (ins : Dict Str TInput) : Dict Str TInput :=
  qs.foldl (fun ins q => putInput E ins q.1 (textInput gs q.1 q.2.1 q.2.2)) ins

theorem putTag_data (C : TplCtx) (base : Str) (ins : Dict Str TInput) (srcs : Dict Str InSt) (n : Str) (i : TInput) (h : i.data ≠ []) :
    putTag C base ins srcs n i = .ok (putInput C.eng ins n i) := by
  unfold putTag putInput
  cases Dict.get? ins n with
  | none => rfl
  | some old => dsimp only; unfold mergeData; rw [if_neg h]; rfl

theorem putTag_new (C : TplCtx) (base : Str) (ins : Dict Str TInput) (srcs : Dict Str InSt) (n : Str) (i : TInput) (h : Dict.get? ins n = none) :
    putTag C base ins srcs n i = .ok (putInput C.eng ins n i) := by
  unfold putTag putInput
  rw [h]; rfl

theorem loadInputsFrom_text (C : TplCtx) (gs : List TopGroup) (base : Str) (xs : List Xml) (qs : List (Str × List Str × Str))
    (h : All2 (fun x q => TextInput x q.1 q.2.1 q.2.2) xs qs) (ins : Dict Str TInput) (srcs : Dict Str InSt) :
    loadInputsFrom C gs base xs ins srcs = .ok (putTexts C.eng gs qs ins) := by
  induction h generalizing ins srcs with
  | nil => rfl
  | cons h1 _ ih =>
    rw [loadInputsFrom, loadInput_text C gs base _ _ _ _ h1, ok_bind, putTag_data _ _ _ _ _ _ (by simp [textInput]), ok_bind]
    exact ih _ _

theorem loadInputs_text (C : TplCtx) (gs : List TopGroup) (base : Str) (xs : List Xml) (qs : List (Str × List Str × Str))
    (h : All2 (fun x q => TextInput x q.1 q.2.1 q.2.2) xs qs) (ins : Dict Str TInput) :
    loadInputs C gs base xs ins = .ok (putTexts C.eng gs qs ins) :=
  loadInputsFrom_text C gs base xs qs h ins []

theorem putInput_get (E : Engine) (ins : Dict Str TInput) (n m : Str) (i : TInput) :
    Dict.get? (putInput E ins n i) m = if n = m then some (match Dict.get? ins n with
      | some old => { old with data := loadData old.data i.data, groups := E.setOrder (old.groups ++ i.groups) }
      | none => i) else Dict.get? ins m := by
  unfold putInput
  cases h : Dict.get? ins n <;> (dsimp only; rw [Dict.get?_set])

theorem putTexts_spec (E : Engine) (hE : E.SetOrderOk) (gs : List TopGroup) (qs : List (Str × List Str × Str)) (ins : Dict Str TInput) (n : Str) :
    (Dict.get? (putTexts E gs qs ins) n).map (·.data) =
      (if Dict.get? ins n = none ∧ n ∉ qs.map (·.1) then none else
        some (loadData (((Dict.get? ins n).map (·.data)).getD []) ((qs.filter (fun q => decide (q.1 = n))).map (fun q => ⟨.text, .str q.2.2⟩)))) ∧
    ∀ l, (Dict.get? (putTexts E gs qs ins) n).map (·.groups) = some l → ∀ i, i ∈ l ↔
      (∃ old, Dict.get? ins n = some old ∧ i ∈ old.groups) ∨ ∃ q ∈ qs, q.1 = n ∧ i ∈ inputGroups gs n q.2.1 := by
  induction qs generalizing ins with
  | nil =>
    refine ⟨?_, ?_⟩
    · cases h : Dict.get? ins n with
      | none => simp [putTexts, h]
      | some i => simp [putTexts, h, loadData]
    · intro l hl i
      simp only [putTexts, List.foldl_nil, Option.map_eq_some_iff] at hl
      obtain ⟨old, h1, h2⟩ := hl
      subst h2
      simp [h1]
  | cons q qs ih =>
    obtain ⟨m, names, s⟩ := q
    have ih := ih (putInput E ins m (textInput gs m names s))
    have e : putTexts E gs ((m, names, s) :: qs) ins = putTexts E gs qs (putInput E ins m (textInput gs m names s)) := rfl
    rw [e]
    rw [putInput_get] at ih
    by_cases hm : m = n
    · subst hm
      rw [if_pos rfl] at ih
      refine ⟨?_, ?_⟩
      · rw [ih.1]
        simp only [List.map_cons, List.mem_cons, true_or, not_true_eq_false, and_false, if_false, reduceCtorEq, false_and]
        rw [List.filter_cons_of_pos (by simp), List.map_cons]
        congr 1
        cases h : Dict.get? ins m with
        | none =>
          simp only [Option.map_some, Option.getD_some, Option.map_none, Option.getD_none, textInput]
          have := loadData_append [] [⟨.text, .str s⟩] ((qs.filter (fun q => decide (q.1 = m))).map (fun q => ⟨.text, .str q.2.2⟩))
          rw [List.singleton_append] at this
          rw [← this]; rfl
        | some old =>
          simp only [Option.map_some, Option.getD_some, textInput]
          rw [loadData_append]; rfl
      · intro l hl i
        rw [ih.2 l hl i]
        constructor
        · rintro (⟨old, h1, h2⟩ | ⟨q, h1, h2, h3⟩)
          · cases h : Dict.get? ins m with
            | none =>
              rw [h] at h1
              simp only [Option.some.injEq] at h1
              subst h1
              exact Or.inr ⟨_, List.mem_cons_self, rfl, h2⟩
            | some o =>
              rw [h] at h1
              simp only [Option.some.injEq] at h1
              subst h1
              simp only at h2
              rw [(hE _).2, List.mem_append] at h2
              rcases h2 with h2 | h2
              · exact Or.inl ⟨o, rfl, h2⟩
              · exact Or.inr ⟨_, List.mem_cons_self, rfl, h2⟩
          · exact Or.inr ⟨q, by simp [h1], h2, h3⟩
        · rintro (⟨old, h1, h2⟩ | ⟨q, h1, h2, h3⟩)
          · left
            rw [h1]
            refine ⟨_, rfl, ?_⟩
            simp only
            rw [(hE _).2, List.mem_append]; exact Or.inl h2
          · rcases List.mem_cons.1 h1 with e | h1
            · subst e
              left
              refine ⟨_, rfl, ?_⟩
              cases h : Dict.get? ins m with
              | none => exact h3
              | some o =>
                simp only
                rw [(hE _).2, List.mem_append]; exact Or.inr h3
            · exact Or.inr ⟨q, h1, h2, h3⟩
    · rw [if_neg hm] at ih
      refine ⟨?_, ?_⟩
      · rw [ih.1]
        have hm' : ¬ n = m := fun e => hm e.symm
        simp only [List.map_cons, List.mem_cons, hm', false_or]
        rw [List.filter_cons_of_neg (by simp [hm])]
      · intro l hl i
        rw [ih.2 l hl i]
        constructor
        · rintro (h | ⟨q, h1, h2, h3⟩)
          · exact Or.inl h
          · exact Or.inr ⟨q, by simp [h1], h2, h3⟩
        · rintro (h | ⟨q, h1, h2, h3⟩)
          · exact Or.inl h
          · rcases List.mem_cons.1 h1 with e | h1
            · subst e; exact absurd h2 hm
            · exact Or.inr ⟨q, h1, h2, h3⟩

theorem putInput_keys (E : Engine) (ins : Dict Str TInput) (n : Str) (i : TInput) :
    Dict.keys (putInput E ins n i) = if n ∈ Dict.keys ins then Dict.keys ins else Dict.keys ins ++ [n] := by
  unfold putInput
  cases h : Dict.get? ins n with
  | none =>
    have := (Dict.get?_eq_none_iff _ _).1 h
    rw [if_neg this]; exact Dict.keys_set_of_not_mem _ _ _ this
  | some o =>
    have : n ∈ Dict.keys ins := by
      apply Classical.byContradiction; intro e
      rw [(Dict.get?_eq_none_iff _ _).2 e] at h; exact absurd h (by simp)
    rw [if_pos this]; exact Dict.keys_set_of_mem _ _ _ this

theorem eraseDups_cons_removeAll (a : Str) (l : List Str) : (a :: l).eraseDups = a :: (l.removeAll [a]).eraseDups := by
  rw [List.eraseDups_cons]
  congr 2
  simp only [List.removeAll, List.elem_eq_mem, List.mem_singleton]
  apply List.filter_congr
  intro b _
  by_cases h : b = a <;> simp [h]

theorem putTexts_keys (E : Engine) (gs : List TopGroup) (qs : List (Str × List Str × Str)) (ins : Dict Str TInput) :
    Dict.keys (putTexts E gs qs ins) = Dict.keys ins ++ ((qs.map (·.1)).removeAll (Dict.keys ins)).eraseDups := by
  induction qs generalizing ins with
  | nil => simp [putTexts, List.removeAll]
  | cons q qs ih =>
    have e : putTexts E gs (q :: qs) ins = putTexts E gs qs (putInput E ins q.1 (textInput gs q.1 q.2.1 q.2.2)) := rfl
    rw [e, ih, putInput_keys]
    by_cases h : q.1 ∈ Dict.keys ins
    · rw [if_pos h]
      congr 2
      simp [List.removeAll, h]
    · rw [if_neg h, List.append_assoc]
      congr 1
      have : ((q :: qs).map (·.1)).removeAll (Dict.keys ins) = q.1 :: (qs.map (·.1)).removeAll (Dict.keys ins) := by
        simp [List.removeAll, h]
      rw [this, eraseDups_cons_removeAll, List.singleton_append]
      congr 2
      simp only [List.removeAll, List.filter_filter]
      apply List.filter_congr
      intro a _
      simp only [List.elem_eq_mem, List.mem_append, List.mem_singleton, Bool.decide_or, Bool.not_or, Bool.and_comm]

theorem groupInputs_get (C : TplCtx) (gs : List TopGroup) (base : Str) (ns : List Str) (ins : Dict Str TInput) (n : Str) :
    Dict.get? (groupInputs C gs base ns ins) n =
      if Dict.get? ins n = none ∧ n ∈ ns then
        some ⟨loadData [] ((loadFiles C.eng.world (.str (base ++ n))).filter (fun d => decide (d.kind ≠ .text))), inputGroups gs n [c!"all"], [], .dict []⟩
      else Dict.get? ins n := by
  induction ns generalizing ins with
  | nil => simp [groupInputs]
  | cons m ns ih =>
    rw [groupInputs]
    by_cases hm : Dict.has ins m = true
    · rw [if_pos hm, ih]
      have hne : Dict.get? ins m ≠ none := by
        intro e; unfold Dict.has at hm; rw [e] at hm; simp at hm
      by_cases e : m = n
      · subst e; simp [hne]
      · have : ¬ n = m := fun h => e h.symm
        simp [this]
    · rw [if_neg hm]
      dsimp only
      rw [ih, putInput_get]
      have hne : Dict.get? ins m = none := by
        cases h : Dict.get? ins m with
        | none => rfl
        | some v => exact absurd (by unfold Dict.has; rw [h]; rfl) hm
      by_cases e : m = n
      · subst e; simp [hne]
      · have : ¬ n = m := fun h => e h.symm
        simp [this, e]

theorem groupInputs_keys (C : TplCtx) (gs : List TopGroup) (base : Str) (ns : List Str) (ins : Dict Str TInput) :
    Dict.keys ins <+: Dict.keys (groupInputs C gs base ns ins) := by
  induction ns generalizing ins with
  | nil => exact List.prefix_refl _
  | cons m ns ih =>
    rw [groupInputs]
    split
    · exact ih ins
    · refine List.IsPrefix.trans ?_ (ih _)
      rw [putInput_keys]
      split
      · exact List.prefix_refl _
      · exact List.prefix_append _ _

end TTP
