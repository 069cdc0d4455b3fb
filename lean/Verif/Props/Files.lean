import Verif.Proofs.Urls
/-!
# C108, C109: data given as paths, input tags with urls
-/

set_option synthInstance.maxSize 4000

namespace Props
open Py Spec TTP

namespace Ex

/-- files and their texts -/
def dfiles : List (Str × Str) := [(c!"d/a", c!"interface a"), (c!"d/b", c!"interface b\nspeed 1"), (c!"lib/x", c!"interface x"), (c!"bad", [])]
/-- a file system with a directory and a directory of templates; the file `bad` is not UTF-8 -/
def dworld : World := { world0 with
  isFile := fun p => (Dict.get? dfiles p).isSome
  isDir := fun p => p == c!"d"
  listdir := fun p => if p = c!"d" then [c!"b", c!"sub", c!"a"] else []
  templatesDir := some c!"lib"
  readFile := fun p => if p = c!"bad" then .error .unicodeError else match Dict.get? dfiles p with
    | some c => .ok c
    | none => .error .fileNotFound }
/-- no functions, these files -/
def dEng : Engine := { eng0 with world := dworld }
/-- the file system without files -/
def dEngLater : Engine := eng0

end Ex

/-! ## C108 -/

/-- C108. Data given as a path are the texts of the files it names: the file itself, a file of the directory of templates, or all files of
a directory in the order in which they are listed. The parse shows the same as if the texts had been given one after the other (which the
code only does for different texts: equal texts of different files count each). -/
theorem C108_paths_read_as_texts (E : Engine) (o : TTPObj) (n tn : Str) (gs : List Str) (p : Str) (fs cs : List Str)
    (hp : NamesFiles E.world p fs) (hr : All2 (FileText E.world) fs cs) (hfs : fs.Nodup) (hcs : cs.Nodup) (hc : ∀ c ∈ cs, NotAPath E.world c)
    (hn : NoData o n) (hE : Resorts E o) (hb : NameBlind E o) :
    seen (parseOne E (addInput E o (.str p) n tn gs)) =
      seen (parseOne E (cs.foldl (fun o c => addInput E o (.str c) n tn gs) o)) := by
  by_cases hne : fs = []
  · subst hne
    cases hr
    have : addInput E o (.str p) n tn gs = o := by
      unfold addInput; rw [loadFiles_names hp]; rfl
    rw [this]; rfl
  · have hne2 : cs ≠ [] := by cases hr with
      | nil => exact absurd rfl hne
      | cons _ _ => simp
    rw [addInput_new E o _ n tn gs _ (loadFiles_names hp) (by simpa using hne)
        (List.Pairwise.map _ (fun a b h e => h (by simpa using e)) hfs) hn,
      addInputs_new E o n tn gs cs (cs.map (fun c => ⟨.text, .str c⟩)) hE hn ?_ (List.Pairwise.map _ (fun a b h e => h (by simpa using e)) hcs)
        (by simpa using hne2)]
    · apply putData_alike E o n tn gs _ _ hn
      intro t ht r
      apply All2_map
      clear hp hcs hfs hne hne2 hc
      induction hr with
      | nil => exact .nil
      | cons h1 _ ih =>
        refine .cons ?_ ih
        exact alike_of E _ _ _ _ _ _ (dataOf_file h1) rfl (hb t ht)
    · clear hr hcs hne2
      induction cs with
      | nil => exact .nil
      | cons c cs ih =>
        exact .cons (loadFiles_text _ _ (hc c (by simp))) (ih (fun c h => hc c (by simp [h])))

/-- the hypotheses are met: a directory with two files and a directory inside -/
example : NamesFiles Ex.dEng.world c!"d" [c!"d/b", c!"d/a"] :=
  NamesFiles.dir (by decide) (by decide) (by intro d h; cases h; right; decide) (by decide)
example : All2 (FileText Ex.dEng.world) [c!"d/b", c!"d/a"] [c!"interface b\nspeed 1", c!"interface a"] :=
  .cons (.file (by decide) (by decide) rfl) (.cons (.file (by decide) (by decide) rfl) .nil)
theorem Ex.text_notpath (w : World) (s : Str) (h1 : ¬ c!"ttp://" <+: s) (h2 : w.isFile (s.take 5000) = false) (h3 : w.isDir (s.take 5000) = false)
    (h4 : ∀ d, w.templatesDir = some d → d = [] ∨ w.isFile (d ++ '/' :: s.take 5000) = false) : NotAPath w s := ⟨h1, h2, h3, h4⟩
example : ∀ c ∈ [c!"interface b\nspeed 1", c!"interface a"], NotAPath Ex.dEng.world c := by
  intro c hc
  simp only [List.mem_cons, List.not_mem_nil, or_false] at hc
  rcases hc with e | e <;> subst e <;> exact ⟨by decide, by decide, by decide, by intro d h; cases h; right; decide⟩
example : NoData Ex.obj0 c!"x" ∧ NameBlind Ex.dEng Ex.obj0 := by
  constructor
  · intro t ht
    simp only [Ex.obj0, List.mem_cons, List.not_mem_nil, or_false] at ht
    rcases ht with e | e <;> subst e <;> rfl
  · intro t ht q hq
    simp only [Ex.obj0, List.mem_cons, List.not_mem_nil, or_false] at ht
    rcases ht with e | e <;> subst e <;> simp [Ex.tpl0] at hq
theorem Ex.eraseDups_lt (l : List Nat) (h : l.Pairwise (· < ·)) : l.eraseDups = l := by
  induction l with
  | nil => rfl
  | cons a l ih =>
    obtain ⟨h1, h2⟩ := List.pairwise_cons.1 h
    have e : l.filter (fun b => !b == a) = l := List.filter_eq_self.2 (by intro b hb; have := h1 b hb; simp; omega)
    rw [List.eraseDups_cons, e, ih h2]
example (o : TTPObj) : Resorts Ex.dEng o := by
  intro t ht l hl hi
  have e : Ex.dEng.setOrder (l ++ l) = (l ++ l).eraseDups := rfl
  have e2 : l.removeAll l = [] := by simp [List.removeAll]
  rw [e, List.eraseDups_append, Ex.eraseDups_lt l hl, e2]
  simp
example : Ex.resultsOf (parseOne Ex.dEng (addInput Ex.dEng ⟨[{ Ex.tplC with inputs := [] }], [], [], []⟩ (.str c!"d") c!"in" c!"_all_" [])) =
    Ex.resultsOf (parseOne Ex.dEng (addInput Ex.dEng (addInput Ex.dEng ⟨[{ Ex.tplC with inputs := [] }], [], [], []⟩ (.str c!"interface b\nspeed 1")
      c!"in" c!"_all_" []) (.str c!"interface a") c!"in" c!"_all_" [])) := by decide +kernel

/-- C108. A file that does not exist any more when it is parsed is not an error: its path is parsed as if it were the text. -/
theorem C108_vanished_file (E1 E2 : Engine) (o : TTPObj) (n tn : Str) (gs : List Str) (p : Str)
    (hp : NamesFiles E1.world p [p]) (hc : NotAPath E2.world p) (hn : NoData o n) (hb : NameBlind E2 o) :
    seen (parseOne E2 (addInput E1 o (.str p) n tn gs)) = seen (parseOne E2 (addInput E2 o (.str p) n tn gs)) := by
  rw [addInput_new E1 o _ n tn gs _ (loadFiles_names hp) (by simp) (by simp) hn,
    addInput_new E2 o _ n tn gs _ (loadFiles_text _ _ hc) (by simp) (by simp) hn]
  apply putData_alike E2 o n tn gs _ _ hn
  intro t ht r
  refine .cons ?_ .nil
  refine alike_of E2 _ _ _ (.str (dataText p)) p c!"text_data" ?_ rfl (hb t ht)
  simp [TTP.dataOf, loadRead_notpath hc, ok_bind, pure_ok]

/-- the hypotheses are met -/
example : NamesFiles Ex.dEng.world c!"d/a" [c!"d/a"] ∧ NotAPath Ex.dEngLater.world c!"d/a" :=
  ⟨.file (by decide) (by decide), ⟨by decide, rfl, rfl, by intro d h; cases h⟩⟩

/-- C108. A file that is not UTF-8 raises `TypeError`, which does not tell the file. -/
theorem C108_unreadable_file (E : Engine) (t : Tpl) (vars lookups gvars : Dict Str Val) (n : Str) (gs : List Str) (p : Str)
    (hf : ¬ c!"ttp://" <+: p ∧ E.world.isFile (p.take 5000) = true) (hr : E.world.readFile p = .error .unicodeError)
    (hi : t.inputs = []) (hm : lower t.method = c!"per_input" ∨ lower t.method = c!"per_template") :
    parseOne E (addInput E ⟨[t], vars, lookups, gvars⟩ (.str p) n c!"_all_" gs) = .error .typeError := by
  have hn : NoData ⟨[t], vars, lookups, gvars⟩ n := by
    intro t' ht
    simp only [List.mem_singleton] at ht
    subst ht; rw [hi]; rfl
  have hs : selected c!"_all_" t = true := by simp [selected]
  have hd : TTP.dataOf E.world ⟨.file, .str p⟩ = .error .typeError := by
    simp [TTP.dataOf, loadRead, not_prefix_startsWith _ _ hf.1, hf.2, readTemplateFile, hr, throw_err, err_bind]
  rw [addInput_new E _ _ n c!"_all_" gs _ (loadFiles_names (.file hf.1 hf.2)) (by simp) (by simp) hn]
  unfold parseOne putData
  simp only [List.map_cons, List.map_nil, hs, if_true, parseAllOne]
  have : parseTplOne E { t with inputs := Dict.set t.inputs n ⟨[⟨.file, .str p⟩], inputGroups t.groups n (orAll gs), [], .dict []⟩ } gvars =
      .error .typeError := by
    unfold parseTplOne
    simp only [hi, jobsOf, Dict.set, List.map_cons, List.map_nil, List.flatten_cons, List.flatten_nil, List.append_nil]
    rcases hm with hm | hm
    · simp [hm, parsePerInput, parseDatum, hd, err_bind]
    · simp [hm, parsePerTemplate, parseDatum, hd, err_bind]
  rw [this]; rfl

/-- the hypotheses are met -/
example : Ex.dEng.world.readFile c!"bad" = .error .unicodeError ∧
    (¬ c!"ttp://" <+: c!"bad" ∧ Ex.dEng.world.isFile (c!"bad".take 5000) = true) ∧ lower Ex.tpl0.method = c!"per_input" :=
  ⟨rfl, ⟨by decide, by decide⟩, by decide⟩

/-! ## C109 -/

/-- C109. Input tags with urls, in a template whose input tags have different names: the data of an input are those of its urls, one url
after the other. A url is a path after the base path: of a file, whatever its name, or of a directory, of which the files count that have
one of the extensions (if any are given) and match all filters; a url that names nothing is data itself. -/
theorem C109_inputs_with_urls (C : TplCtx) (o o' : TTPObj) (bp name : Str) (x : Xml) (hw : Dict.WF x.attrib)
    (hno : tagged [c!"template"] x.children = []) (qs : List UrlTag)
    (hq : All2 (UrlInput C) (tagged [c!"i", c!"in", c!"input"] x.children) qs) (hd : (qs.map (·.name)).Nodup)
    (h : addTemplateXml C o bp name [] x = .ok o') :
    ∃ t, o' = { o with templates := o.templates ++ [t] } ∧ ∀ q ∈ qs,
      (∃ dss, All2 (fun u ds => UrlData C q.exts q.filters ((Dict.get? x.attrib c!"base_path").getD bp ++ u) ds) q.urls dss ∧
        t.dataOf q.name = some dss.flatten) ∧
      ∃ l, t.groupsFor q.name = some l ∧ l.Pairwise (· < ·) ∧ ∀ i, i ∈ l ↔ Routed t.groups q.name q.groups i := by
  obtain ⟨r, h1, h2⟩ := addTemplateXml_plain C o o' bp name x hno h
  obtain ⟨tv, outs, ls, tops, ins, e1, e2, e3, e4, e5, e6⟩ := loadRest_ok C _ _ _ _ h1
  obtain ⟨a1, a2⟩ := loadInputs_urls C (tops.map (·.1)) (tplAttrs x.attrib ⟨name, bp, c!"per_input", c!"."⟩).base _ qs hq hd [] ins
    (by intro q _; rfl) e5
  refine ⟨r.1, h2, ?_⟩
  intro q hq'
  obtain ⟨data, ps, b1, b2⟩ := a1 q hq'
  have hg : Dict.get? r.1.inputs q.name = some ⟨data, inputGroups (tops.map (·.1)) q.name q.groups, [], ps⟩ := by
    rw [e6]; dsimp only
    rw [groupInputs_get, b2, if_neg (by rintro ⟨a, _⟩; cases a)]
  refine ⟨?_, ?_⟩
  · obtain ⟨dss, c1, c2⟩ := loadUrls_data C _ _ _ _ _ b1
    rw [tplAttrs_get _ hw] at c1
    exact ⟨dss, c1, by unfold Tpl.dataOf; rw [hg, c2]; rfl⟩
  · refine ⟨_, by unfold Tpl.groupsFor; rw [hg]; rfl, inputGroups_lt _ _ _, ?_⟩
    intro i
    rw [e6]
    exact mem_inputGroups _ _ _ _

namespace Ex

/-- a context with files; the text `L` loads as urls, extensions and filters -/
def uctx : TplCtx := { tctx with
  load := { tctx.load with re := fun s => if s = c!"a[.]" then some (Re.lits c!"a.") else none }
  eng := { tctx.eng with world := { dworld with
    isFile := fun p => decide (p ∈ [c!"/d/a.txt", c!"/d/b.txt", c!"/d/a.log", c!"/f"]), isDir := fun p => p == c!"/d"
    listdir := fun p => if p = c!"/d" then [c!"b.txt", c!"a.log", c!"a.txt", c!"sub.txt"] else [] } }
  loader := fun n => if n = c!"python" then some (fun t _ => .ok (if t = c!"L" then
    .dict [(.s c!"url", .list [.str c!"d", .str c!"f", .str c!"d"]), (.s c!"extensions", .str c!"txt"), (.s c!"filters", .list [.str c!"a[.]"])]
    else .none)) else none }
/-- an input tag with attributes, and one with text -/
def utags : List Xml := [.mk c!"input" [(c!"name", c!"x"), (c!"url", c!"d"), (c!"extensions", c!"txt")] none [] none,
  .mk c!"input" [(c!"load", c!"python"), (c!"name", c!"y")] (some c!"L") [] none]
/-- what they say -/
def uqs : List UrlTag := [⟨c!"x", [c!"all"], [c!"d"], [c!"txt"], []⟩, ⟨c!"y", [c!"all"], [c!"d", c!"f", c!"d"], [c!"txt"], [c!"a[.]"]⟩]

end Ex

/-- the hypotheses are met -/
example : All2 (UrlInput Ex.uctx) (tagged [c!"i", c!"in", c!"input"] (Ex.root (Ex.tagG c!"g" :: Ex.utags)).children) Ex.uqs := by
  refine .cons (.tag (by decide) (by unfold Dict.WF; decide) (by decide) rfl (Or.inl rfl) rfl rfl rfl) (.cons ?_ .nil)
  exact .loaded c!"python" c!"L" (fun t _ => .ok (if t = c!"L" then
    .dict [(.s c!"url", .list [.str c!"d", .str c!"f", .str c!"d"]), (.s c!"extensions", .str c!"txt"), (.s c!"filters", .list [.str c!"a[.]"])]
    else .none)) [(c!"url", .list [.str c!"d", .str c!"f", .str c!"d"]), (c!"extensions", .str c!"txt"), (c!"filters", .list [.str c!"a[.]"])]
    (by decide) (by unfold Dict.WF; decide) (by decide) rfl rfl (by decide) rfl (by decide) rfl (fun _ => rfl)
    (by unfold Dict.WF; decide) (by decide) (.many [c!"d", c!"f", c!"d"]) (.one _) (.many [c!"a[.]"])
example : Ex.viewT (α := List (Str × List Val)) (fun t => List.map (fun (i : Str × TInput) => (i.1, i.2.data.map (·.val))) t.inputs)
    (addTemplateXml Ex.uctx Ex.objE c!"/" c!"t" [] (Ex.root (Ex.tagG c!"g" :: Ex.utags))) =
      some [[(c!"x", [.str c!"/d/b.txt", .str c!"/d/a.txt"]), (c!"y", [.str c!"/d/a.txt", .str c!"/f", .str c!"/d/a.txt"])]] := by
  decide +kernel

end Props
