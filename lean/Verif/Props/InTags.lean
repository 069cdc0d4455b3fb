import Verif.Proofs.InTags2
import Verif.Props.Files
/-!
# C144, C145: tags of lookup tables and of inputs

`C : TplCtx` stands for the file system, the loaders of formats and the functions there are.
-/

set_option synthInstance.maxSize 4000

namespace Props
open Py Spec TTP

/-! ## C144 -/

theorem loadStruct_table (C : TplCtx) (x : Xml) (v : Val) (h : loadStruct C x.text (attrVals x.attrib) = .ok v) : HoldsTable C x v := by
  unfold loadStruct at h
  rw [attrVals_get, attrVals_get] at h
  have hl : ((Dict.get? x.attrib c!"load").map Val.str).getD (.str c!"python") = .str ((Dict.get? x.attrib c!"load").getD c!"python") := by
    cases Dict.get? x.attrib c!"load" <;> rfl
  have hi : ((Dict.get? x.attrib c!"include").map Val.str).getD .none = .none ↔ Dict.get? x.attrib c!"include" = none := by
    cases Dict.get? x.attrib c!"include" <;> simp
  rw [hl] at h
  dsimp only at h
  simp only [hi] at h
  split at h
  · rename_i hc
    rw [pure_ok, Except.ok.injEq] at h
    subst h
    exact .nothing hc.1 hc.2
  · rename_i hc
    split at h
    · cases h
    · rename_i f hf
      exact .loaded hc hf h

/-- the tables of lookup tags with their values, over tables that are there -/
theorem parseLookups_get (C : TplCtx) (xs : List Xml) (ls ls' : Dict Str Val) (h : parseLookups C xs ls = .ok ls') :
    ∃ vs, All2 (fun x v => Dict.get? x.attrib c!"name" = none ∨ HoldsTable C x v) xs vs ∧
      ∀ n, Dict.get? ls' n =
        ((((xs.zip vs).filter (fun q => decide (Dict.get? q.1.attrib c!"name" = some n ∧ q.2 ≠ .none))).getLast?).map (·.2)).or (Dict.get? ls n) := by
  induction xs generalizing ls with
  | nil =>
    rw [parseLookups, pure_ok, Except.ok.injEq] at h
    subst h
    exact ⟨[], .nil, by simp⟩
  | cons x xs ih =>
    rw [parseLookups] at h
    obtain ⟨l1, h1, h⟩ := (bind_ok_iff _ _ _).1 h
    obtain ⟨vs, h2, h3⟩ := ih _ h
    unfold parseLookup at h1
    cases hn : Dict.get? x.attrib c!"name" with
    | none =>
      rw [hn] at h1
      dsimp only at h1
      rw [pure_ok, Except.ok.injEq] at h1
      subst h1
      refine ⟨.none :: vs, .cons (Or.inl hn) h2, fun n => ?_⟩
      rw [h3 n, List.zip_cons_cons, List.filter_cons_of_neg (by simp)]
    | some m =>
      rw [hn] at h1
      dsimp only at h1
      obtain ⟨v, hv, h1⟩ := (bind_ok_iff _ _ _).1 h1
      refine ⟨v :: vs, .cons (Or.inr (loadStruct_table C x v hv)) h2, fun n => ?_⟩
      rw [h3 n, List.zip_cons_cons]
      by_cases hz : v = .none
      · rw [if_pos hz, pure_ok, Except.ok.injEq] at h1
        rw [List.filter_cons_of_neg (by simp [hz]), h1]
      · rw [if_neg hz, pure_ok, Except.ok.injEq] at h1
        subst h1
        by_cases hm : m = n
        · subst hm
          rw [List.filter_cons_of_pos (by simp [hn, hz]), Dict.get?_set_self, List.getLast?_cons]
          cases ((xs.zip vs).filter (fun q => decide (Dict.get? q.1.attrib c!"name" = some m ∧ q.2 ≠ .none))).getLast? <;> simp
        · rw [List.filter_cons_of_neg (by simp [hn, hm]), Dict.get?_set_ne _ _ hm]

/-- C144. The lookup tables of a template: under each name there is what the last tag of the name holds that holds something. A tag without
name gives nothing and is not even read. -/
theorem C144_lookup_tables (C : TplCtx) (o o' : TTPObj) (bp name : Str) (x : Xml) (hno : tagged [c!"template"] x.children = [])
    (h : addTemplateXml C o bp name [] x = .ok o') :
    ∃ t vs, o' = { o with templates := o.templates ++ [t] } ∧
      All2 (fun y v => Dict.get? y.attrib c!"name" = none ∨ HoldsTable C y v) (tagged [c!"lookup"] x.children) vs ∧
      ∀ n, Dict.get? t.lookups n =
        ((((tagged [c!"lookup"] x.children).zip vs).filter (fun q => decide (Dict.get? q.1.attrib c!"name" = some n ∧ q.2 ≠ .none))).getLast?).map (·.2) := by
  obtain ⟨r, h1, h2⟩ := addTemplateXml_plain C o o' bp name x hno h
  obtain ⟨tv, outs, ls, tops, ins, e1, e2, e3, e4, e5, e6⟩ := loadRest_ok C _ _ _ _ h1
  obtain ⟨vs, a, b⟩ := parseLookups_get C (tagged [c!"lookup"] x.children) [] ls e3
  refine ⟨r.1, vs, h2, a, fun n => ?_⟩
  rw [e6]
  dsimp only
  rw [b n]
  simp [Dict.get?]

namespace Ex

/-- `<lookup name="n">s</lookup>` -/
def tagL (n s : Str) : Xml := .mk c!"lookup" [(c!"name", n)] (some s) [] none

end Ex

/-- the hypotheses are met: two tables, one of them written again, one without a name -/
example : Ex.viewT (fun t => t.lookups) (addTemplateXml Ex.tctx Ex.objE [] c!"_root_template_" []
    (Ex.root [Ex.tagL c!"p" c!"1", Ex.tagG c!"g", Ex.tagL c!"q" c!"2", .mk c!"lookup" [] (some c!"3") [] none, Ex.tagL c!"p" c!"4", Ex.tagL c!"q" []])) =
    some [[(c!"p", asVal [(c!"a", .str c!"4")]), (c!"q", asVal [(c!"a", .str c!"2")])]] := by decide +kernel

/-! ## C145 -/

theorem all2_filter {α β : Type} {R : α → β → Prop} {p : α → Bool} {q : β → Bool} {xs : List α} {ys : List β} (h : All2 R xs ys)
    (hp : ∀ x y, R x y → p x = q y) : All2 R (xs.filter p) (ys.filter q) := by
  induction h with
  | nil => exact .nil
  | cons h1 _ ih =>
    rename_i x y xs ys _
    have := hp _ _ h1
    cases hx : p x with
    | true => rw [List.filter_cons_of_pos hx, List.filter_cons_of_pos (by rw [← this, hx])]; exact .cons h1 ih
    | false => rw [List.filter_cons_of_neg (by simp [hx]), List.filter_cons_of_neg (by simp [← this, hx])]; exact ih

theorem all2_map_eq {α β γ : Type} {R : α → β → Prop} {f : α → γ} {g : β → γ} {xs : List α} {ys : List β} (h : All2 R xs ys)
    (hp : ∀ x y, R x y → f x = g y) : xs.map f = ys.map g := by
  induction h with
  | nil => rfl
  | cons h1 _ ih => simp [hp _ _ h1, ih]

/-- C145. The inputs of a template with input tags of any kind: functions and parameters are those of the first tag of the name, groups
those of all tags of the name, and data those of all tags of the name (see `addedData`). -/
theorem C145_input_tags (C : TplCtx) (hE : C.eng.SetOrderOk) (o o' : TTPObj) (bp name : Str) (x : Xml) (hw : Dict.WF x.attrib)
    (hno : tagged [c!"template"] x.children = []) (hx : ∀ y ∈ tagged [c!"i", c!"in", c!"input"] x.children, LoadPlain C y)
    (h : addTemplateXml C o bp name [] x = .ok o') :
    ∃ t rs, o' = { o with templates := o.templates ++ [t] } ∧
      All2 (InputTag C t.groups ((Dict.get? x.attrib c!"base_path").getD bp)) (tagged [c!"i", c!"in", c!"input"] x.children) rs ∧
      (rs.map (·.name)).eraseDups <+: Dict.keys t.inputs ∧
      ∀ n first rest, rs.filter (fun r => decide (r.name = n)) = first :: rest →
        ∃ i again, Dict.get? t.inputs n = some i ∧ i.functions = first.functions ∧ i.parameters = .dict first.params ∧
          (∀ g, g ∈ i.groups ↔ ∃ r ∈ first :: rest, g ∈ r.groups) ∧
          ((∃ r ∈ rest, r.data = []) → ReadUrls C ((Dict.get? x.attrib c!"base_path").getD bp) first again) ∧
          i.data = addedData again first.data (rest.map (·.data)) := by
  obtain ⟨r, h1, h2⟩ := addTemplateXml_plain C o o' bp name x hno h
  obtain ⟨tv, outs, ls, tops, ins, e1, e2, e3, e4, e5, e6⟩ := loadRest_ok C _ _ _ _ h1
  have e5 : loadInputsFrom C (tops.map (·.1)) (tplAttrs x.attrib ⟨name, bp, c!"per_input", c!"."⟩).base
    (tagged [c!"i", c!"in", c!"input"] x.children) [] [] = .ok ins := e5
  have hbase : (tplAttrs x.attrib ⟨name, bp, c!"per_input", c!"."⟩).base = (Dict.get? x.attrib c!"base_path").getD bp := by
    rw [tplAttrs_get _ hw]
  rw [hbase] at e5 e6
  obtain ⟨qs, q1, q2⟩ := loadInputsFrom_put C _ _ _ _ _ _ e5
  obtain ⟨rs, r1, r2⟩ := readAs_tags hx q1
  have hg : r.1.groups = tops.map (·.1) := by rw [e6]
  have hnames : qs.map (fun q => q.1.name) = rs.map (·.name) := all2_map_eq r2 (fun q r hq => by rw [hq.2]; rfl)
  refine ⟨r.1, rs, h2, by rw [hg]; exact r1, ?_, ?_⟩
  · rw [e6]
    refine List.IsPrefix.trans ?_ (groupInputs_keys _ _ _ _ _)
    rw [putAll_keys C _ _ _ _ _ q2, hnames]
    have e : Dict.keys ([] : Dict Str TInput) = [] := rfl
    rw [e, List.nil_append]
    have e2 : (rs.map (·.name)).removeAll [] = rs.map (·.name) := by simp [List.removeAll]
    rw [e2]
    exact List.prefix_refl _
  · intro n first rest hf
    have hfil := all2_filter (p := fun q : InSt × List Datum => decide (q.1.name = n)) (q := fun r : InRec => decide (r.name = n)) r2
      (fun q r hq => by rw [hq.2]; rfl)
    rw [hf] at hfil
    cases hq : ofName n qs with
    | nil => unfold ofName at hq; rw [hq] at hfil; cases hfil
    | cons q qrest =>
      have hq2 := hq
      unfold ofName at hq2
      rw [hq2] at hfil
      cases hfil with
      | cons k1 k2 =>
        obtain ⟨i, again, a1, a2, a3, a4, a5, a6⟩ := putAll_new C hE _ n qs [] ins [] q2 rfl rfl q qrest hq
        have hd : qrest.map (·.2) = rest.map (·.data) := all2_map_eq k2 (fun q r hq => by rw [hq.2]; rfl)
        have hgr : qrest.map (fun q => q.1.groups) = rest.map (·.groups) := all2_map_eq k2 (fun q r hq => by rw [hq.2]; rfl)
        have f1 : first.functions = q.1.functions := by rw [k1.2]; rfl
        have f2 : first.groups = q.1.groups := by rw [k1.2]; rfl
        have f3 : first.data = q.2 := by rw [k1.2]; rfl
        have f4 : first.exts = q.1.extensions := by rw [k1.2]; rfl
        have f5 : first.filters = q.1.filters := by rw [k1.2]; rfl
        have f6 : first.urls = q.1.urls := by rw [k1.2]; rfl
        refine ⟨i, again, ?_, by rw [a2, f1], by rw [a3, k1.1], ?_, ?_, by rw [a6, f3, hd]⟩
        · rw [e6]
          dsimp only
          rw [groupInputs_get, a1]
          simp
        · intro g
          rw [a4 g]
          simp only [List.mem_cons, exists_eq_or_imp, f2]
          refine or_congr Iff.rfl ?_
          constructor
          · rintro ⟨p, hp, hgp⟩
            have : p.1.groups ∈ rest.map (·.groups) := by rw [← hgr]; exact List.mem_map.2 ⟨p, hp, rfl⟩
            obtain ⟨s, hs, he⟩ := List.mem_map.1 this
            exact ⟨s, hs, by rw [he]; exact hgp⟩
          · rintro ⟨p, hp, hgp⟩
            have : p.groups ∈ qrest.map (fun q => q.1.groups) := by rw [hgr]; exact List.mem_map.2 ⟨p, hp, rfl⟩
            obtain ⟨s, hs, he⟩ := List.mem_map.1 this
            exact ⟨s, hs, by rw [he]; exact hgp⟩
        · rintro ⟨s, hs, he⟩
          have hm : s.data ∈ qrest.map (·.2) := by rw [hd]; exact List.mem_map.2 ⟨s, hs, rfl⟩
          obtain ⟨p, hp, hpe⟩ := List.mem_map.1 hm
          have := a5 ⟨p, hp, by rw [hpe]; exact he⟩
          unfold ReadUrls
          rw [f4, f5, f6]
          exact loadUrls_data C _ _ _ _ _ this

/-- C145. A tag whose text is the data loads as soon as its attributes can be read, and then it gives the input that they say. -/
theorem C145_text_tag_loads (C : TplCtx) (gs : List TopGroup) (base : Str) (x : Xml) (hx : LoadPlain C x) (s : Str) (hs : x.text = some s) (hne : s ≠ [])
    (load : Str) (hl : load = c!"text") (urls exts filters : List Str) (n : Str) (groups : List Nat) (fs : List FnCall) (d : Dict Key Val) (seq : List (Str × Val))
    (h1 : InText C x d) (h2 : InOrder x d seq)
    (h3 : InputOf C gs seq (strip ((Dict.get? x.attrib c!"name").getD c!"Default_Input")) load urls exts filters n groups fs) :
    loadInput C gs base x = .ok (n, ⟨[⟨.text, .str s⟩], groups, fs, .dict d⟩) := by
  have := (inState_iff C gs x hx ⟨n, load, exts, filters, urls, groups, fs, .dict d⟩).2 ⟨d, seq, h1, h2, rfl, h3⟩
  unfold inState at this
  subst hl
  unfold loadInput
  dsimp only
  rw [this, ok_bind, hs]
  cases s with
  | nil => exact absurd rfl hne
  | cons c cs =>
    dsimp only
    rw [if_pos rfl, pure_ok, ok_bind, pure_ok]

namespace Ex

/-- a context with files; the text `L` loads as a name, the text `M` as a list of commands -/
def nctx : TplCtx := { uctx with
  loader := fun n => if n = c!"python" then some (fun t _ => .ok (if t = c!"L" then
    .dict [(.s c!"name", .str c!"in"), (.s c!"url", .list [.str c!"d", .str c!"f"]), (.s c!"extensions", .str c!"log")]
    else if t = c!"M" then .dict [(.s c!"extract_commands", .list [.str c!"show a"])] else .none)) else none }
/-- an input tag -/
def tagN (at_ : Dict Str Str) (s : Option Str) : Xml := .mk c!"input" at_ s [] none
/-- names, data, groups and functions of inputs -/
def inView (t : Tpl) : List (Str × List Datum × List Nat × List (Str × List Val)) :=
  t.inputs.map (fun kv => (kv.1, kv.2.data, kv.2.groups, kv.2.functions.map (fun f => (f.name, f.args))))

end Ex

/-- the hypotheses are met: a tag with text and commands, and one with urls in its text -/
example : Ex.viewT Ex.inView (addTemplateXml Ex.nctx Ex.objE c!"/" c!"_root_template_" []
    (Ex.root [Ex.tagG c!"g", Ex.tagGi c!"h" c!"in", Ex.tagN [(c!"name", c!" t "), (c!"load", c!"text"), (c!"extract_commands", c!"show a, show b,")] (some c!"x"),
      Ex.tagN [(c!"load", c!"python")] (some c!"L"), Ex.tagN [(c!"Name", c!"t"), (c!"load", c!"text")] (some c!"y")])) =
    some [[(c!"t", [⟨.text, .str c!"x"⟩, ⟨.text, .str c!"y"⟩], [0], [(c!"extract_commands", [.str c!"show a", .str c!"show b"])]),
      (c!"in", [⟨.file, .str c!"/d/a.log"⟩, ⟨.file, .str c!"/f"⟩], [1], [])]] := by decide +kernel

example : LoadPlain Ex.nctx (Ex.tagN [(c!"load", c!"python")] (some c!"L")) := by
  refine ⟨by unfold Dict.WF; decide, by intro k hk _; simpa [Ex.tagN, Xml.attrib, Dict.keys] using hk, ?_⟩
  intro d hd k v hm
  cases hd with
  | text => cases hm
  | nothing => cases hm
  | empty => cases hm
  | loaded _ _ hf he =>
    have : some _ = some _ := hf
    cases this
    have he := Except.ok.inj he
    rw [if_pos (by rfl)] at he
    cases he
    simp only [List.mem_cons, Prod.mk.injEq, Key.s.injEq, List.not_mem_nil, or_false] at hm
    rcases hm with ⟨rfl, _⟩ | ⟨rfl, _⟩ | ⟨rfl, _⟩ <;> decide

/-- C145. The functions of a second tag of a name are lost, although its data are used. -/
theorem C145_second_functions_lost : ∃ (C : TplCtx) (o : TTPObj) (a b : Xml),
    Ex.viewT Ex.inView (addTemplateXml C o [] c!"_root_template_" [] (Ex.root [Ex.tagG c!"g", b])) =
      some [[(c!"in", [⟨.text, .str c!"y"⟩], [0], [(c!"extract_commands", [.str c!"show b"])])]] ∧
    Ex.viewT Ex.inView (addTemplateXml C o [] c!"_root_template_" [] (Ex.root [Ex.tagG c!"g", a, b])) =
      some [[(c!"in", [⟨.text, .str c!"x"⟩, ⟨.text, .str c!"y"⟩], [0], [])]] :=
  ⟨Ex.nctx, Ex.objE, Ex.tagN [(c!"name", c!"in"), (c!"load", c!"text")] (some c!"x"),
    Ex.tagN [(c!"name", c!"in"), (c!"load", c!"text"), (c!"extract_commands", c!"show b")] (some c!"y"), by decide +kernel, by decide +kernel⟩

/-- C145. A second tag of a name without data (say, for more groups) has the urls of the first one read again: each file is parsed twice. -/
theorem C145_data_doubled : ∃ (C : TplCtx) (o : TTPObj) (a b : Xml),
    Ex.viewT Ex.inView (addTemplateXml C o c!"/" c!"_root_template_" [] (Ex.root [Ex.tagG c!"g", Ex.tagG c!"h", a])) =
      some [[(c!"in", [⟨.file, .str c!"/f"⟩], [0], [])]] ∧
    Ex.viewT Ex.inView (addTemplateXml C o c!"/" c!"_root_template_" [] (Ex.root [Ex.tagG c!"g", Ex.tagG c!"h", a, b])) =
      some [[(c!"in", [⟨.file, .str c!"/f"⟩, ⟨.file, .str c!"/f"⟩], [0, 1], [])]] :=
  ⟨Ex.nctx, Ex.objE, Ex.tagN [(c!"name", c!"in"), (c!"url", c!"f"), (c!"groups", c!"g")] none,
    Ex.tagN [(c!"name", c!"in"), (c!"groups", c!"h")] none, by decide +kernel, by decide +kernel⟩

/-- C145. A name in the text counts for the groups only if `load` is written out (else the groups come before the text is read). -/
theorem C145_name_in_text : ∃ (C : TplCtx) (o : TTPObj) (text : Str),
    Ex.viewT Ex.inView (addTemplateXml C o c!"/" c!"_root_template_" [] (Ex.root [Ex.tagG c!"g", Ex.tagGi c!"h" c!"in",
        Ex.tagN [(c!"load", c!"python")] (some text)])) =
      some [[(c!"in", [⟨.file, .str c!"/d/a.log"⟩, ⟨.file, .str c!"/f"⟩], [1], [])]] ∧
    Ex.viewT Ex.inView (addTemplateXml C o c!"/" c!"_root_template_" [] (Ex.root [Ex.tagG c!"g", Ex.tagGi c!"h" c!"in", Ex.tagN [] (some text)])) =
      some [[(c!"in", [⟨.file, .str c!"/d/a.log"⟩, ⟨.file, .str c!"/f"⟩], [0], [])]] :=
  ⟨Ex.nctx, Ex.objE, c!"L", by decide +kernel, by decide +kernel⟩

/-- C145. Commands to extract that are given as a list are ignored. -/
theorem C145_commands_as_list : ∃ (C : TplCtx) (o : TTPObj) (text : Str),
    (∃ f, C.loader c!"python" = some f ∧ ∀ kw, f text kw = .ok (.dict [(.s c!"extract_commands", .list [.str c!"show a"])])) ∧
    Ex.viewT Ex.inView (addTemplateXml C o c!"/" c!"_root_template_" [] (Ex.root [Ex.tagG c!"g", Ex.tagN [] (some text)])) =
      some [[(c!"Default_Input", [], [0], [])]] :=
  ⟨Ex.nctx, Ex.objE, c!"M", ⟨_, rfl, fun _ => rfl⟩, by decide +kernel⟩

end Props
