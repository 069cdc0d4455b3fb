import Verif.Proofs.Outputs3
import Verif.Props.Tags
/-!
# C118 - C122: output tags, files, terminal, syslog

`OutFn.readTag C W x` is the output of a tag `<output>` with its attributes; `OutFn.fileReturner`, `OutFn.terminal`, `OutFn.syslog` are the
returners with what they do outside of the program; `OutFn.runTags` runs the outputs of a template.
-/

namespace Props
open Py Spec TTP TTP.OutFn

/-! ## C118: the tag -/

/-- C118. What an output is: attributes of a dictionary in the text of the tag come before attributes of the tag, these before the defaults;
names, returners, condition, and the functions in the order of the attributes. -/
theorem C118_output_tag (C : TplCtx) (x : Xml) (hx : Dict.WF x.attrib) (hw : ∀ d, TagLoad C x (.dict d) → Dict.WF d)
    (hlow : ∀ load, TagLoad C x load → ∀ n ∈ Dict.keys (outAll x load), lower n ∈ outOptions → lower n = n) (o : Outputter) :
    loadOutput C x = .ok o ↔ ∃ load, TagLoad C x load ∧
      OutputOf C (outAll x load) ⟨none, [], ((Dict.get? (outAll x load) c!"format").map pyStr).getD [], [], none, false⟩ o :=
  loadOutput_iff C x hx hw hlow o

/-- C118. Which value an attribute has. -/
theorem C118_precedence (x : Xml) (hx : Dict.WF x.attrib) (n : Str) :
    (∀ d : Dict Key Val, Dict.WF d → Dict.get? (outAll x (.dict d)) n = (Dict.get? d (.s n)).or (Dict.get? (outTagAttrs x) n)) ∧
    (∀ v : Val, (∀ d, v ≠ .dict d) → Dict.get? (outAll x v) n = Dict.get? (outTagAttrs x) n) ∧
    (¬ (n = c!"load" ∧ Dict.get? x.attrib c!"format" = some c!"jinja2") →
      Dict.get? (outTagAttrs x) n = ((Dict.get? x.attrib n).map Val.str).or (Dict.get? outDefaults n)) := by
  refine ⟨?_, ?_, ?_⟩
  · intro d hd
    have hw := (outBase_eq x hx).2
    show Dict.get? (overlay (outTagAttrs x) (d.filterMap strEntry)) n = _
    rw [overlay_get _ _ hw (strKeys_WF _ hd)]
    congr 1
    clear hd
    induction d with
    | nil => rfl
    | cons p d ih =>
      obtain ⟨k, v⟩ := p
      rw [List.filterMap_cons, Dict.get?_cons]
      cases k with
      | i m => simp only [strEntry]; rw [if_neg (by intro e; cases e)]; exact ih
      | s k =>
        simp only [strEntry, Dict.get?_cons, Key.s.injEq]
        rw [ih]
  · intro v hv
    cases v with
    | dict d => exact absurd rfl (hv d)
    | _ => rfl
  · intro h
    rw [outTagAttrs_get x hx, if_neg h]

/-- C118. What formatters and returners get: the attributes, some of them read (`AttrFor`), and what is in the tag. -/
theorem C118_attributes (C : TplCtx) (W : OutWorld) (x : Xml) (hx : Dict.WF x.attrib) (hw : ∀ d, TagLoad C x (.dict d) → Dict.WF d)
    (hlow : ∀ load, TagLoad C x load → ∀ n ∈ Dict.keys (outAll x load), lower n ∈ outOptions → lower n = n) (t : OutTag)
    (h : readTag C W x = .ok t) : ∃ load, TagLoad C x load ∧ loadOutput C x = .ok t.out ∧
      (∀ n, Dict.get? (outAll x load) n = none → Dict.get? t.attrs n = none) ∧
      (∀ n v, Dict.get? (outAll x load) n = some v → ∃ v', Dict.get? t.attrs n = some v' ∧ AttrFor C W.strftime n v v') ∧
      t.tagLoad = if load.truthy then load else (x.text.map Val.str).getD .none :=
  readTag_attrs C W x hx hw hlow t h

/-- C118, what does not hold: `strict="False"` on the tag is the text `False`, which counts as true; the table stays strict. -/
theorem C118_strict_text (attrs : Dict Str Val) (s : Str) (hs : s ≠ []) (h : Dict.get? attrs c!"strict" = some (.str s))
    (o : Format.TableOpts) (ho : tableOpts attrs = .ok o) : o.strict = true := by
  unfold tableOpts at ho
  obtain ⟨p, _, ho⟩ := (bind_ok_iff _ _ _).1 ho
  obtain ⟨hd, _, ho⟩ := (bind_ok_iff _ _ _).1 ho
  obtain ⟨k, _, ho⟩ := (bind_ok_iff _ _ _).1 ho
  simp only [pure_ok, Except.ok.injEq] at ho
  subst ho
  simp only [h, Option.getD_some]
  cases s with
  | nil => exact absurd rfl hs
  | cons c s => rfl

/-- C118. Options of a table: without an option the path is empty, missing cells are the empty text, there is no key, the path is followed
strictly and the headers are those of the data. -/
theorem C118_table_options (attrs : Dict Str Val) (o : Format.TableOpts) (h : tableOpts attrs = .ok o) :
    (Dict.get? attrs c!"path" = none → o.path = []) ∧ (∀ l, Dict.get? attrs c!"path" = some (strList l) → o.path = l) ∧
    (Dict.get? attrs c!"missing" = none → o.missing = .str []) ∧ (∀ v, Dict.get? attrs c!"missing" = some v → o.missing = v) ∧
    (Dict.get? attrs c!"key" = none → o.key = []) ∧ (∀ v, Dict.get? attrs c!"key" = some v → v = .str o.key) ∧
    (Dict.get? attrs c!"strict" = none → o.strict = true) ∧ (∀ v, Dict.get? attrs c!"strict" = some v → (o.strict = true ↔ v.truthy = true)) ∧
    (Dict.get? attrs c!"headers" = none → o.headers = []) := by
  have hall : ∀ l : List Str, MatchFn.allStrs (l.map .str) = .ok l := by
    intro l
    induction l with
    | nil => rfl
    | cons s l ih => rw [List.map_cons, MatchFn.allStrs, ih]; rfl
  unfold tableOpts at h
  obtain ⟨p, h1, h⟩ := (bind_ok_iff _ _ _).1 h
  obtain ⟨hd, h2, h⟩ := (bind_ok_iff _ _ _).1 h
  obtain ⟨k, h3, h⟩ := (bind_ok_iff _ _ _).1 h
  simp only [pure_ok, Except.ok.injEq] at h
  subst h
  refine ⟨?_, ?_, ?_, ?_, ?_, ?_, ?_, ?_, ?_⟩
  · intro e; rw [e] at h1
    have : optPath .none = .ok p := h1
    simp only [optPath, pure_ok, Except.ok.injEq] at this
    exact this.symm
  · intro l e; rw [e] at h1
    have : MatchFn.allStrs (l.map .str) = .ok p := h1
    rw [hall, Except.ok.injEq] at this
    exact this.symm
  · intro e; simp [e]
  · intro v e; simp [e]
  · intro e; rw [e] at h3
    have : MatchFn.reqStr (.str []) = .ok k := h3
    simp only [MatchFn.reqStr, pure_ok, Except.ok.injEq] at this
    exact this.symm
  · intro v e; rw [e] at h3
    have h3 : MatchFn.reqStr v = .ok k := h3
    cases v with
    | str s => simp only [MatchFn.reqStr, pure_ok, Except.ok.injEq] at h3; simp [h3]
    | _ => simp [MatchFn.reqStr, throw_err] at h3
  · intro e; simp [e, Val.truthy]
  · intro v e; simp [e]
  · intro e; rw [e] at h2
    have : optHeaders .none = .ok hd := h2
    simp only [optHeaders, pure_ok, Except.ok.injEq] at this
    exact this.symm

example : tableOpts [] = .ok ⟨[], .str [], [], true, []⟩ := rfl

/-- C118. The formatter `tabulate` gets the headers and rows of the table, and the arguments that are written in `format_attributes` (none
without that attribute). -/
theorem C118_tabulate (W : OutWorld) (t : OutTag) (data : Val) (hs : List Key) (rows : List (List Val)) (o : Format.TableOpts)
    (ho : tableOpts t.attrs = .ok o) (ht : Format.table o data = .ok (hs, rows)) :
    ∃ f, formatTag W t c!"tabulate" = some f ∧
      (Dict.get? t.attrs c!"format_attributes" = none → f data = W.tabulate (hs.map Spec.keyVal) (rows.map .list) [] []) ∧
      ∀ (args : List Val) (kwargs : Dict Str Val),
        Dict.get? t.attrs c!"format_attributes" = some (.dict [(.s c!"args", .list args), (.s c!"kwargs", .dict (asDict kwargs))]) →
        f data = W.tabulate (hs.map Spec.keyVal) (rows.map .list) args kwargs := by
  have hk : Format.keyVal = Spec.keyVal := by funext k; cases k <;> rfl
  refine ⟨_, rfl, ?_, ?_⟩
  · intro h
    simp only [ho, ok_bind, ht, formatArgs, h, hk]
  · intro args kwargs h
    have e : strKeys (asDict kwargs) = kwargs := by
      rw [strKeys_entries, asDict, List.filterMap_map]
      clear h
      induction kwargs with
      | nil => rfl
      | cons kv kwargs ih => rw [List.filterMap_cons, ih]; rfl
    have e1 : Dict.get? [(Key.s c!"args", Val.list args), (Key.s c!"kwargs", Val.dict (asDict kwargs))] (.s c!"args") = some (.list args) := rfl
    have e2 : Dict.get? [(Key.s c!"args", Val.list args), (Key.s c!"kwargs", Val.dict (asDict kwargs))] (.s c!"kwargs") = some (.dict (asDict kwargs)) := rfl
    simp only [ho, ok_bind, ht, formatArgs, h, hk, e1, e2, e]

/-! ## C119: files -/

/-- C119. The file: the directory is made if it does not exist, then the text of the data is written to one file. Its name is the file name of
the output with the variables filled in (those of the template before the global ones). -/
theorem C119_file (W : OutWorld) (t : OutTag) (data : Val) (ps : List FPart) (hp : ∀ n, FPart.value n ∈ ps → PlainName n) (hv : Dict.WF W.vars)
    (hf : Dict.get? t.attrs c!"filename" = some (.str (fmtSource ps))) (hne : fmtSource ps ≠ []) (url : Str)
    (hu : (Dict.get? t.attrs c!"url").getD (.str c!"./Output/") = .str url) :
    (∀ name, FilledIn (fun n => (Dict.get? W.vars n).or (Dict.get? W.gvars n)) ps name →
      fileReturner W t data = .ok ((if W.pathExists url then [] else [.mkdir url]) ++ [.write (osJoin url name) (pyStr data)])) ∧
    ((∃ n, FPart.value n ∈ ps ∧ Dict.get? W.vars n = none ∧ Dict.get? W.gvars n = none) →
      fileReturner W t data = .ok ((if W.pathExists url then [] else [.mkdir url]) ++ [.write (osJoin url (fmtSource ps)) (pyStr data)])) := by
  have hg : ∀ n, Dict.get? (Dict.update W.gvars W.vars) n = (Dict.get? W.vars n).or (Dict.get? W.gvars n) := Dict.get?_update _ _ hv
  have ht : (Val.str (fmtSource ps)).truthy = true := by
    cases h : fmtSource ps with
    | nil => exact absurd h hne
    | cons c s => rfl
  have base : ∀ r, fillName W (fmtSource ps) = r →
      fileReturner W t data = .ok ((if W.pathExists url then [] else [.mkdir url]) ++ [.write (osJoin url r) (pyStr data)]) := by
    intro r hr
    unfold fileReturner
    rw [hu]
    simp only [MatchFn.reqStr, pure_ok, ok_bind]
    have : fileName W t = .ok r := by
      unfold fileName
      simp only [hf, nameGiven, hr, pure_ok, ok_bind]
      simp only [Option.getD_some, ht, if_true]
    rw [this]
    rfl
  have hn := Fmt.format_names W.fmt [] (Dict.update W.gvars W.vars) ps hp .unknown
  constructor
  · intro name hname
    apply base
    have := hn.1 name (filled_congr _ _ ps name (fun n _ => (hg n).symm) hname)
    unfold fillName Fmt.format
    rw [this]
  · rintro ⟨n, h1, h2, h3⟩
    apply base
    have := hn.2 ⟨n, h1, by rw [hg, h2, h3]; rfl⟩
    unfold fillName Fmt.format
    rw [this]

/-- C119. Without a file name: the name of the output and the time. -/
theorem C119_default_name (W : OutWorld) (t : OutTag) (data : Val) (hf : Dict.get? t.attrs c!"filename" = none) (url : Str)
    (hu : (Dict.get? t.attrs c!"url").getD (.str c!"./Output/") = .str url) :
    (∀ n, t.out.name = some n → fileReturner W t data =
      .ok ((if W.pathExists url then [] else [.mkdir url]) ++ [.write (osJoin url (n ++ c!"_output_" ++ W.ctime ++ c!".txt")) (pyStr data)])) ∧
    (t.out.name = none → fileReturner W t data = .error .typeError) := by
  constructor
  · intro n hn
    unfold fileReturner
    rw [hu]
    simp only [MatchFn.reqStr, pure_ok, ok_bind]
    have : fileName W t = .ok (n ++ c!"_output_" ++ W.ctime ++ c!".txt") := by
      unfold fileName
      simp only [hf, hn, nameGiven, Option.getD_none, pure_ok, ok_bind]
      rw [if_neg (by decide)]
      simp
    rw [this]
    rfl
  · intro hn
    unfold fileReturner
    rw [hu]
    simp only [MatchFn.reqStr, pure_ok, ok_bind]
    have : fileName W t = .error .typeError := by
      unfold fileName
      simp only [hf, hn, nameGiven, Option.getD_none, pure_ok, ok_bind]
      rw [if_neg (by decide)]
      rfl
    rw [this]
    rfl

/-! ## C120: terminal -/

/-- C120. Without colours the data are printed once: a text as it is, other data as Python writes them, with line feeds for `\n`. -/
theorem C120_print (t : OutTag) (data : Val) (hc : Dict.get? t.attrs c!"colour" = none) (u : Str) :
    (data = .str u → terminal t data = .ok [.print u]) ∧
    ((∀ s, data ≠ .str s) → Replaced c!"\\n" c!"\n" (pyStr data) u → terminal t data = .ok [.print u]) := by
  have hh : Dict.has t.attrs c!"colour" = false := by
    cases h : Dict.has t.attrs c!"colour" with
    | false => rfl
    | true => rw [Dict.has_iff] at h; exact absurd h ((Dict.get?_eq_none_iff _ _).1 hc)
  unfold terminal
  rw [hh]
  simp only [Bool.false_eq_true, if_false, pure_ok, ok_bind]
  constructor
  · rintro rfl; rfl
  · intro h1 h2
    have e := (MatchFn.Replaced_iff _ _ (by decide) _ _).1 h2
    cases data with
    | str s => exact absurd rfl (h1 s)
    | _ => rw [e]

/-- the words of a colour of an output -/
def WordsOf (attrs : Dict Str Val) (name default : Str) (words : List Str) : Prop :=
  ∃ s, (Dict.get? attrs name).getD (.str default) = .str s ∧ words = (splitC ',' s).map strip

/-- C120. With colours each word of red, then of green, then of yellow gets the code of the colour before and the end of colour after it, one
word after the other. If no word has a character of a code, the printed text is the text with codes put in between. -/
theorem C120_colours (t : OutTag) (s : Str) (hc : Dict.get? t.attrs c!"colour" ≠ none) (red green yellow : List Str)
    (hr : WordsOf t.attrs c!"red" c!"False,No,Failed,Error,Failure,Fail,false,no,failed,error,failure,fail" red)
    (hg : WordsOf t.attrs c!"green" c!"True,Yes,Success,Ok,true,yes,success,ok" green)
    (hy : WordsOf t.attrs c!"yellow" c!"Warning,warning" yellow)
    (hne : ∀ w ∈ red ++ green ++ yellow, w ≠ []) (es : List Eff) (h : terminal t (.str s) = .ok es) :
    ∃ u, es = [.print u] ∧ ReplacedSeq (colourPairs ansiRed red ++ colourPairs ansiGreen green ++ colourPairs ansiYellow yellow) s u ∧
      ((∀ w ∈ red ++ green ++ yellow, NotInCodes w) → Coloured s u) := by
  have hh : Dict.has t.attrs c!"colour" = true := by
    rw [Dict.has_iff]
    by_cases hm : c!"colour" ∈ Dict.keys t.attrs
    · exact hm
    · exact absurd ((Dict.get?_eq_none_iff _ _).2 hm) hc
  have hcw : ∀ name default words, WordsOf t.attrs name default words → colourWords t.attrs name default = .ok words := by
    rintro name default words ⟨s, hs, rfl⟩
    unfold colourWords
    rw [hs]; rfl
  unfold terminal at h
  rw [hh] at h
  simp only [if_true, hcw _ _ _ hr, hcw _ _ _ hg, hcw _ _ _ hy, ok_bind, asText, pure_ok, Except.ok.injEq] at h
  refine ⟨_, h.symm, ?_⟩
  have n1 : ∀ w ∈ red, w ≠ [] := fun w hw => hne w (by simp [hw])
  have n2 : ∀ w ∈ green, w ≠ [] := fun w hw => hne w (by simp [hw])
  have n3 : ∀ w ∈ yellow, w ≠ [] := fun w hw => hne w (by simp [hw])
  have r1 := (colour_iff ansiRed red n1 s _).2 rfl
  have r2 := (colour_iff ansiGreen green n2 _ _).2 (rfl : colour ansiGreen green (colour ansiRed red s) = _)
  have r3 := (colour_iff ansiYellow yellow n3 _ _).2 (rfl : colour ansiYellow yellow (colour ansiGreen green (colour ansiRed red s)) = _)
  refine ⟨(ReplacedSeq_append _ _ _ _).2 ⟨_, (ReplacedSeq_append _ _ _ _).2 ⟨_, r1, r2⟩, r3⟩, ?_⟩
  intro hcodes
  have c1 := Coloured_seq ansiRed (by simp) red (fun w hw => ⟨n1 w hw, hcodes w (by simp [hw])⟩) _ _ r1 s (Coloured_refl s)
  have c2 := Coloured_seq ansiGreen (by simp) green (fun w hw => ⟨n2 w hw, hcodes w (by simp [hw])⟩) _ _ r2 s c1
  exact Coloured_seq ansiYellow (by simp) yellow (fun w hw => ⟨n3 w hw, hcodes w (by simp [hw])⟩) _ _ r3 s c2

/-- C120, what does not hold: colours of data that are no text are an error; a word with a character of a code breaks the codes of the words
before it; a word that contains a later word of the list loses its colour after that word (`Failed`, with `Fail`). -/
theorem C120_colour_limits :
    (∀ (t : OutTag) (xs : List Val), Dict.get? t.attrs c!"colour" ≠ none → Dict.get? t.attrs c!"red" = none → Dict.get? t.attrs c!"green" = none →
      Dict.get? t.attrs c!"yellow" = none → terminal t (.list xs) = .error .attributeError) ∧
    colour ansiRed [c!"a", c!"4"] c!"a" = c!"\x1b[0;31;\x1b[0;31;40m4\x1b[0m0ma\x1b[0m" ∧
    colour ansiRed [c!"Failed", c!"Fail"] c!"Failed" = ansiRed ++ (ansiRed ++ c!"Fail" ++ ansiEnd) ++ c!"ed" ++ ansiEnd := by
  refine ⟨?_, by decide, by decide⟩
  intro t xs hc h1 h2 h3
  have hh : Dict.has t.attrs c!"colour" = true := by
    rw [Dict.has_iff]
    by_cases hm : c!"colour" ∈ Dict.keys t.attrs
    · exact hm
    · exact absurd ((Dict.get?_eq_none_iff _ _).2 hm) hc
  unfold terminal colourWords
  rw [hh, h1, h2, h3]
  rfl

/-! ## C121: syslog -/

/-- C121. Every server gets the messages of all data, in order, on the given port; no server, no message. -/
theorem C121_syslog (W : OutWorld) (t : OutTag) (data : Val) (servers : List Str) (port : Int) (path : List Str) (n : Int)
    (hs : Dict.get? t.attrs c!"servers" = some (strList servers) ∨ ∃ s, Dict.get? t.attrs c!"servers" = some (.str s) ∧ servers = [s])
    (hp : (Dict.get? t.attrs c!"port").getD (.int 514) = .int port) (hpath : (Dict.get? t.attrs c!"path").getD (.list []) = strList path)
    (hi : (Dict.get? t.attrs c!"interval").getD (.int 1) = .int n) (source : List Val) (hd : data = .list source ∨ (∀ xs, data ≠ .list xs) ∧ source = [data]) :
    ∃ mss, All2 (Messages (Json.dump Json.compact 0) path ((Dict.get? t.attrs c!"iterate").getD (.bool true)).truthy) source mss ∧
      syslog W t data = .ok (servers.flatMap (fun s => mss.flatten.map (.send s port))) := by
  have hall : ∀ l : List Str, MatchFn.allStrs (l.map .str) = .ok l := by
    intro l
    induction l with
    | nil => rfl
    | cons s l ih => rw [List.map_cons, MatchFn.allStrs, ih]; rfl
  have hso : serversOf ((Dict.get? t.attrs c!"servers").getD .none) = .ok servers := by
    rcases hs with h | ⟨s, h, rfl⟩
    · rw [h]; exact hall servers
    · rw [h]; rfl
  have hsrc : sourceOf data = source := by
    rcases hd with rfl | ⟨h, rfl⟩
    · rfl
    · cases data with
      | list xs => exact absurd rfl (h xs)
      | _ => rfl
  refine ⟨source.map (messages W path ((Dict.get? t.attrs c!"iterate").getD (.bool true)).truthy), ?_, ?_⟩
  · clear hsrc hd
    induction source with
    | nil => exact .nil
    | cons v vs ih => exact .cons ((messages_iff W path _ v _).2 rfl) ih
  · unfold syslog
    rw [hso, hp, hpath, hi]
    simp only [ok_bind]
    have hpa : pathArg (strList path) = .ok path := hall path
    rw [hpa]
    by_cases he : servers = []
    · subst he; rfl
    · rw [if_neg he]
      simp only [portOf, pure_ok, ok_bind, intervalOk, hsrc]
      have e : source.flatMap (messages W path ((Dict.get? t.attrs c!"iterate").getD (.bool true)).truthy) =
          (source.map (messages W path ((Dict.get? t.attrs c!"iterate").getD (.bool true)).truthy)).flatten := List.flatMap_def ..
      rw [← e]

/-- C121. The port may be given as a number, a text with a number, or a boolean. -/
theorem C121_port (W : OutWorld) (t : OutTag) (data v : Val) (p : Int)
    (h : v = .int p ∨ (v = .bool true ∧ p = 1) ∨ (v = .bool false ∧ p = 0) ∨ ∃ s, v = .str s ∧ intOfStr s = some p) :
    syslog W { t with attrs := Dict.set t.attrs c!"port" v } data = syslog W { t with attrs := Dict.set t.attrs c!"port" (.int p) } data := by
  have hp : portOf v = .ok p := by
    rcases h with rfl | ⟨rfl, rfl⟩ | ⟨rfl, rfl⟩ | ⟨s, rfl, hs⟩
    · rfl
    · rfl
    · rfl
    · simp only [portOf, hs, pure_ok]
  have hp2 : portOf (.int p) = .ok p := rfl
  unfold syslog
  dsimp only
  simp only [Dict.get?_set_self, Dict.get?_set_ne _ _ (show c!"port" ≠ c!"servers" by decide), Dict.get?_set_ne _ _ (show c!"port" ≠ c!"path" by decide),
    Dict.get?_set_ne _ _ (show c!"port" ≠ c!"interval" by decide), Dict.get?_set_ne _ _ (show c!"port" ≠ c!"iterate" by decide), Option.getD_some, hp, hp2]

example : intOfStr c!"6514" = some 6514 := by decide

/-- C121, what does not hold: attributes of a tag are texts - an interval given there is an error, and `iterate="False"` counts as true. -/
theorem C121_texts (W : OutWorld) (t : OutTag) (data : Val) (s i : Str) (h : Dict.get? t.attrs c!"servers" = some (.str s))
    (hp : Dict.get? t.attrs c!"port" = none) (hpath : Dict.get? t.attrs c!"path" = none) (hi : Dict.get? t.attrs c!"interval" = some (.str i)) :
    syslog W t data = .error .typeError ∧ (Val.str c!"False").truthy = true := by
  unfold syslog
  rw [h, hp, hpath, hi]
  exact ⟨rfl, rfl⟩

/-! ## C122: runs -/

theorem runReturnersE_iff (W : OutWorld) (t : OutTag) (v : Val) (rs : List Str) (f f' : Bool) (es : List Eff) :
    runReturnersE W t v rs f = .ok (f', es) ↔ Effects W t v rs es ∧ f' = (f || decide (c!"self" ∈ rs)) := by
  induction rs generalizing f es with
  | nil =>
    simp only [runReturnersE, pure_ok, Except.ok.injEq, Prod.mk.injEq]
    constructor
    · rintro ⟨rfl, rfl⟩; exact ⟨.nil, by simp⟩
    · rintro ⟨h, rfl⟩; cases h; simp
  | cons r rs ih =>
    rw [runReturnersE]
    by_cases h1 : r = c!"self"
    · subst h1
      rw [if_pos rfl, ih]
      constructor
      · rintro ⟨h, rfl⟩; exact ⟨.other (by decide) h, by simp⟩
      · rintro ⟨h, rfl⟩
        refine ⟨?_, by simp⟩
        cases h with
        | other _ h => exact h
    · rw [if_neg h1]
      have hself : decide (c!"self" ∈ r :: rs) = decide (c!"self" ∈ rs) := by simp [Ne.symm h1]
      rw [hself]
      have some_case : ∀ g, returnTag W t r = some g → (∀ es, (∃ e1 e2, g v = .ok e1 ∧ Effects W t v rs e2 ∧ es = e1 ++ e2) ↔ Effects W t v (r :: rs) es) →
          ((do let es ← g v; let rest ← runReturnersE W t v rs f; pure (rest.1, es ++ rest.2) : PyM (Bool × List Eff)) = .ok (f', es) ↔
            Effects W t v (r :: rs) es ∧ f' = (f || decide (c!"self" ∈ rs))) := by
        intro g _ hg
        simp only [bind_ok_iff, pure_ok, Except.ok.injEq, Prod.mk.injEq]
        rw [← hg]
        constructor
        · rintro ⟨e1, h1, ⟨f2, e2⟩, h2, rfl, rfl⟩
          obtain ⟨h3, h4⟩ := (ih f e2).1 (by rw [h2])
          exact ⟨⟨e1, e2, h1, h3, rfl⟩, by
            have := (ih f e2 ).1 h2
            exact h4⟩
        · rintro ⟨⟨e1, e2, h1, h3, rfl⟩, rfl⟩
          exact ⟨e1, h1, (_, e2), (ih f e2).2 ⟨h3, rfl⟩, rfl, rfl⟩
      by_cases h2 : r = c!"file"
      · subst h2
        refine some_case (fileReturner W t) rfl (fun es => ?_)
        constructor
        · rintro ⟨e1, e2, a, b, rfl⟩; exact .file a b
        · intro h
          cases h with
          | file a b => exact ⟨_, _, a, b, rfl⟩
          | other a b => exact absurd a (by decide)
      · by_cases h3 : r = c!"terminal"
        · subst h3
          refine some_case (terminal t) rfl (fun es => ?_)
          constructor
          · rintro ⟨e1, e2, a, b, rfl⟩; exact .terminal a b
          · intro h
            cases h with
            | terminal a b => exact ⟨_, _, a, b, rfl⟩
            | other a b => exact absurd a (by decide)
        · by_cases h4 : r = c!"syslog"
          · subst h4
            refine some_case (syslog W t) rfl (fun es => ?_)
            constructor
            · rintro ⟨e1, e2, a, b, rfl⟩; exact .syslog a b
            · intro h
              cases h with
              | syslog a b => exact ⟨_, _, a, b, rfl⟩
              | other a b => exact absurd a (by decide)
          · have hn : returnTag W t r = none := by
              unfold returnTag
              rw [if_neg h2, if_neg h3, if_neg h4]
            rw [hn]
            simp only
            rw [ih]
            constructor
            · rintro ⟨h, rfl⟩; exact ⟨.other (by simp [h2, h3, h4]) h, rfl⟩
            · rintro ⟨h, rfl⟩
              refine ⟨?_, rfl⟩
              cases h with
              | file _ _ => exact absurd rfl h2
              | terminal _ _ => exact absurd rfl h3
              | syslog _ _ => exact absurd rfl h4
              | other _ h => exact h

theorem runTag_iff (E : Engine) (W : OutWorld) (vars : Dict Str Val) (hw : ∀ n v, Dict.get? vars n = some v → DeepWF v) (t t' : OutTag) (data v : Val)
    (es : List Eff) (ho : CondOk t.out.condition) : runTag E W vars t data = .ok (v, t', es) ↔ OneTag E W vars t data v t' es := by
  have hb := condHolds_iff vars hw t.out.condition ho
  unfold runTag
  by_cases hy : CondMet vars t.out.condition
  case neg =>
    have hn := hy
    rw [hb.2 hn, ok_bind]
    simp only [Bool.false_eq_true, if_false, pure_ok, Except.ok.injEq, Prod.mk.injEq]
    constructor
    · rintro ⟨rfl, rfl, rfl⟩; exact .skip hn
    · intro h
      cases h with
      | skip _ => exact ⟨rfl, rfl, rfl⟩
      | run h _ _ _ => exact absurd h hn
  case pos =>
    rw [hb.1 hy, ok_bind]
    simp only [if_true, bind_ok_iff, pure_ok, Except.ok.injEq, Prod.mk.injEq]
    have hf : ∀ r1 r2, formatWith (engineOf E W t) t.out.format r1 = .ok r2 ↔ Formatted (engineOf E W t) t.out.format r1 r2 := by
      intro r1 r2
      unfold formatWith Formatted
      cases h : (engineOf E W t).formatters t.out.format with
      | none => simp [pure_ok]; exact eq_comm
      | some f => simp
    constructor
    · rintro ⟨r1, h1, r2, h2, ⟨fl, es'⟩, h3, rfl, rfl, rfl⟩
      obtain ⟨h4, rfl⟩ := (runReturnersE_iff W t r2 _ _ _ _).1 h3
      exact .run hy ((runOutFns_iff _ _ _ _).1 h1) ((hf _ _).1 h2) h4
    · intro h
      cases h with
      | skip h => exact absurd hy h
      | @run r1 r2 _ _ h1 h2 h3 =>
        exact ⟨r1, (runOutFns_iff _ _ _ _).2 h1, r2, (hf _ _).2 h2, (_, es), (runReturnersE_iff W t r2 _ _ _ _).2 ⟨h3, rfl⟩, rfl, rfl, rfl⟩

/-- C122. The outputs of a template run in order, each on what the one before handed on; what happens outside is what their returners do with
the formatted data, in the order of the outputs and of the returners of each. An output whose condition does not hold does nothing. -/
theorem C122_outputs (E : Engine) (W : OutWorld) (vars : Dict Str Val) (hw : ∀ n v, Dict.get? vars n = some v → DeepWF v) (ts ts' : List OutTag)
    (data v : Val) (es : List Eff) (ho : ∀ t ∈ ts, CondOk t.out.condition) :
    runTags E W vars ts data = .ok (v, ts', es) ↔ TagChain E W vars ts data v ts' es := by
  induction ts generalizing data ts' es with
  | nil =>
    simp only [runTags, pure_ok, Except.ok.injEq, Prod.mk.injEq]
    constructor
    · rintro ⟨rfl, rfl, rfl⟩; exact .nil _
    · intro h; cases h; exact ⟨rfl, rfl, rfl⟩
  | cons t ts ih =>
    rw [runTags]
    simp only [bind_ok_iff]
    constructor
    · rintro ⟨⟨v1, t1, e1⟩, h1, ⟨v2, ts2, e2⟩, h2, h3⟩
      simp only [pure_ok, Except.ok.injEq, Prod.mk.injEq] at h3
      obtain ⟨rfl, rfl, rfl⟩ := h3
      exact .cons ((runTag_iff E W vars hw t t1 data v1 e1 (ho t (by simp))).1 h1) ((ih _ _ _ (fun x hx => ho x (by simp [hx]))).1 h2)
    · intro h
      cases h with
      | @cons _ t1 _ ts2 _ v1 _ e1 e2 h1 h2 =>
        exact ⟨(v1, t1, e1), (runTag_iff E W vars hw t t1 data v1 e1 (ho t (by simp))).2 h1, (v, ts2, e2),
          (ih _ _ _ (fun x hx => ho x (by simp [hx]))).2 h2, rfl⟩

/-- C122. The data handed on and the outputs afterwards are those of `runOutput` (C62, C115). -/
theorem C122_same_results (E : Engine) (W : OutWorld) (vars : Dict Str Val) (hw : ∀ n v, Dict.get? vars n = some v → DeepWF v) (t t' : OutTag)
    (data v : Val) (es : List Eff) (ho : CondOk t.out.condition) (h : runTag E W vars t data = .ok (v, t', es)) :
    runOutput (engineOf E W t) vars t.out data = .ok (v, t'.out) := by
  rw [runOutput_iff _ vars hw _ _ _ _ ho]
  have h := (runTag_iff E W vars hw t t' data v es ho).1 h
  cases h with
  | skip hn => exact .skip hn
  | @run r1 r2 _ hy h1 h2 h3 =>
    refine .run hy h1 h2 ?_
    have : ∀ rs es, Effects W t r2 rs es → Returned (engineOf E W t) rs r2 := by
      intro rs es h
      have some' : ∀ (r : Str) (g : Val → PyM (List Eff)) (e1 : List Eff), returnTag W t r = some g → g r2 = .ok e1 →
          ∀ f, (engineOf E W t).returners r = some f → f r2 = .ok () := by
        intro r g e1 hg h1 f hf
        have : (returnTag W t r).map (fun f v => (do let _ ← f v : PyM Unit)) = some f := hf
        rw [hg] at this
        simp only [Option.map_some, Option.some.injEq] at this
        rw [← this]
        show (do let _ ← g r2 : PyM Unit) = _
        rw [h1]; rfl
      induction h with
      | nil => intro r hr; cases hr
      | file a _ ih =>
        intro r hr hns f hf
        rcases List.mem_cons.1 hr with rfl | hr
        · exact some' _ (fileReturner W t) _ rfl a f hf
        · exact ih r hr hns f hf
      | terminal a _ ih =>
        intro r hr hns f hf
        rcases List.mem_cons.1 hr with rfl | hr
        · exact some' _ (terminal t) _ rfl a f hf
        · exact ih r hr hns f hf
      | syslog a _ ih =>
        intro r hr hns f hf
        rcases List.mem_cons.1 hr with rfl | hr
        · exact some' _ (syslog W t) _ rfl a f hf
        · exact ih r hr hns f hf
      | other a _ ih =>
        intro r hr hns f hf
        rcases List.mem_cons.1 hr with rfl | hr
        · have : (returnTag W t r).map (fun f v => (do let _ ← f v : PyM Unit)) = some f := hf
          unfold returnTag at this
          simp only [List.mem_cons, List.not_mem_nil, or_false, not_or] at a
          rw [if_neg a.1, if_neg a.2.1, if_neg a.2.2] at this
          cases this
        · exact ih r hr hns f hf
    exact this _ _ h3

/-! ## C77 -/

/-- C77. `traverse`, strict, gives exactly what the path leads to; if it leads nowhere, there is an error. -/
theorem C77_traverse_strict (path : List Str) (v w : Val) : Format.traverse true path v = .ok w ↔ Leads path v w := traverse_iff path v w

example : Leads [c!"a"] (.list [.dict [(.s c!"a", .int 1)], .str c!"x"]) (.list [.int 1, .str c!"x"]) :=
  (C77_traverse_strict _ _ _).1 (by decide)

/-! ## Examples -/

namespace Ex

/-- nothing outside; one macro, directories exist -/
def ow : OutWorld :=
  ⟨fun s => replace s c!"%Y" c!"2024", c!"2024-01-02_03-04-05", fun _ => true, [(c!"m", fun _ => .ok (.int 1))],
   [(c!"host", .str c!"g"), (c!"site", .str c!"s1")], [(c!"host", .str c!"r1")], fun _ _ _ => .error .valueError, fun _ _ _ v => .ok v,
   fun _ _ => none, fun _ _ _ _ => .ok .none, [], fun _ _ _ => .error .valueError, fun _ _ _ => .error .valueError, [], c!"per_input", []⟩

/-- an output tag with a text that is a dictionary for the loader of `ctxO` -/
def tagOut : Xml := ⟨c!"output", [(c!"name", c!"out"), (c!"returner", c!"file, self"), (c!"macro", c!"m"), (c!"format", c!"csv"), (c!"path", c!"a.b"),
  (c!"filename", c!"{host}_%Y.txt"), (c!"strict", c!"False")], some c!"x", [], none⟩

/-- the loader `python` gives the header names and another format -/
def ctxO : TplCtx := { tctx with
  loader := fun l => if l = c!"python" then some (fun _ _ => .ok (.dict [(.s c!"headers", .str c!"p, q"), (.s c!"format", .str c!"table")])) else none
  load := ⟨[], fun _ => none, fun s => some ([.str s], []), fun _ => none, fun _ => false⟩
  isOutFn := fun n => n == c!"macro" || n == c!"traverse" }

end Ex

open Ex

/-- what is in the example tag -/
theorem tagOut_load (load : Val) (h : TagLoad ctxO tagOut load) :
    load = .dict [(.s c!"headers", .str c!"p, q"), (.s c!"format", .str c!"table")] := by
  have h' := (loadStruct_iff ctxO tagOut (by unfold Dict.WF; decide) load).2 h
  have e : loadStruct ctxO tagOut.text (outBase tagOut.attrib) = .ok (.dict [(.s c!"headers", .str c!"p, q"), (.s c!"format", .str c!"table")]) := by decide
  rw [e] at h'
  cases h'; rfl

/-- the hypotheses of C118 hold for the tag: it is an output with format `table`, returners `file` and `self` and the function `macro("m")` -/
example : ∃ load, TagLoad ctxO tagOut load ∧
    OutputOf ctxO (outAll tagOut load) ⟨none, [], ((Dict.get? (outAll tagOut load) c!"format").map pyStr).getD [], [], none, false⟩
      ⟨some c!"out", [⟨c!"macro", [.str c!"m"], []⟩], c!"table", [c!"file", c!"self"], none, false⟩ :=
  (C118_output_tag ctxO tagOut (by unfold Dict.WF; decide)
    (fun d h => by cases tagOut_load _ h; unfold Dict.WF; decide)
    (fun load h => by cases tagOut_load _ h; decide) _).1 (by decide)

example : ∃ t, readTag ctxO ow tagOut = .ok t ∧ Dict.get? t.attrs c!"path" = some (.list [.str c!"a", .str c!"b"]) ∧
    Dict.get? t.attrs c!"filename" = some (.str c!"{host}_2024.txt") ∧ tableOpts t.attrs = .ok ⟨[c!"a", c!"b"], .str [], [], true, [.s c!"p", .s c!"q"]⟩ :=
  ⟨⟨⟨some c!"out", [⟨c!"macro", [.str c!"m"], []⟩], c!"table", [c!"file", c!"self"], none, false⟩,
    [(c!"returner", .list [.str c!"file", .str c!"self"]), (c!"format", .str c!"table"), (c!"load", .str c!"python"), (c!"name", .str c!"out"),
     (c!"macro", .str c!"m"), (c!"path", .list [.str c!"a", .str c!"b"]), (c!"filename", .str c!"{host}_2024.txt"), (c!"strict", .str c!"False"),
     (c!"headers", .list [.str c!"p", .str c!"q"])],
    .dict [(.s c!"headers", .str c!"p, q"), (.s c!"format", .str c!"table")]⟩, by decide, by decide, by decide, rfl⟩

/-- an output with some attributes -/
def Ex.outT (attrs : Dict Str Val) (returners : List Str) : OutTag := ⟨⟨some c!"out", [], c!"raw", returners, none, false⟩, attrs, .none⟩

/-- the file name is filled in from the variables of the template before the global ones -/
example : fileReturner ow (Ex.outT [(c!"filename", .str c!"{site}_{host}.txt"), (c!"url", .str c!"/tmp")] []) (.int 5) =
    .ok [.write c!"/tmp/s1_r1.txt" c!"5"] :=
  (C119_file ow _ (.int 5) [.value c!"site", .text c!"_", .value c!"host", .text c!".txt"]
    (by
      intro n h
      simp only [List.mem_cons, FPart.value.injEq, List.not_mem_nil, or_false, reduceCtorEq, false_or] at h
      rcases h with rfl | rfl <;> exact ⟨⟨'s', by decide, by decide⟩, by decide⟩)
    (by unfold Dict.WF; decide) rfl (by decide) c!"/tmp" rfl).1 c!"s1_r1.txt"
    (.value (v := .str c!"s1") (by decide) (.text (s := c!"_") (.value (v := .str c!"r1") (by decide) (.text (s := c!".txt") .nil))))

example : fileReturner ow (Ex.outT [] []) (.str c!"x") = .ok [.write c!"./Output/out_output_2024-01-02_03-04-05.txt" c!"x"] :=
  (C119_default_name ow _ _ rfl c!"./Output/" rfl).1 c!"out" rfl

/-- colours: the words have no character of a code -/
example : ∃ u, Coloured c!"vlan up no" u ∧ terminal (Ex.outT [(c!"colour", .str c!""), (c!"red", .str c!"no"), (c!"green", .str c!"up"), (c!"yellow", .str c!"?")] [])
    (.str c!"vlan up no") = .ok [.print u] := by
  obtain ⟨u, h1, _, h3⟩ := C120_colours (Ex.outT [(c!"colour", .str c!""), (c!"red", .str c!"no"), (c!"green", .str c!"up"), (c!"yellow", .str c!"?")] [])
    c!"vlan up no" (by decide) [c!"no"] [c!"up"] [c!"?"] ⟨c!"no", by decide, by decide⟩ ⟨c!"up", by decide, by decide⟩ ⟨c!"?", by decide, by decide⟩
    (by decide) _ (rfl : _ = (Except.ok [.print (colour ansiYellow [c!"?"] (colour ansiGreen [c!"up"] (colour ansiRed [c!"no"] c!"vlan up no")))] : PyM (List Eff)))
  exact ⟨u, h3 (by unfold NotInCodes; decide), by rw [← h1]; rfl⟩

/-- two servers, two data, one message for each item -/
example : syslog ow (Ex.outT [(c!"servers", .list [.str c!"a", .str c!"b"])] []) (.list [.list [.int 1, .int 2], .none, .int 3]) =
    .ok ([c!"a", c!"b"].flatMap (fun s => [Eff.send s 514 c!"1", .send s 514 c!"2", .send s 514 c!"3"])) := by decide

example : ∃ mss, All2 (Messages (Json.dump Json.compact 0) [] true) [.list [.int 1, .int 2], .none, .int 3] mss ∧
    syslog ow (Ex.outT [(c!"servers", .list [.str c!"a", .str c!"b"])] []) (.list [.list [.int 1, .int 2], .none, .int 3]) =
      .ok ([c!"a", c!"b"].flatMap (fun s => mss.flatten.map (.send s 514))) :=
  C121_syslog ow (Ex.outT [(c!"servers", .list [.str c!"a", .str c!"b"])] []) _ [c!"a", c!"b"] 514 [] 1 (.inl rfl) rfl rfl rfl _ (.inl rfl)

/-- two outputs: the first prints, the second hands on its table -/
example : ∃ ts, TagChain eng0 ow [] [Ex.outT [] [c!"terminal"], Ex.outT [] [c!"self", c!"terminal"]] (.str c!"x") (.str c!"x") ts [.print c!"x", .print c!"x"] :=
  ⟨_, (C122_outputs eng0 ow [] (by intro n v h; cases h) _ _ _ _ _ (by intro t ht; left; revert t; decide)).1
    (rfl : _ = (Except.ok (_, [Ex.outT [] [c!"terminal"], { Ex.outT [] [c!"self", c!"terminal"] with
      out := { (Ex.outT [] [c!"self", c!"terminal"]).out with selfFlag := true } }], _) : PyM _))⟩

example : ∃ f, formatTag { Ex.ow with tabulate := fun hs rs as ks => .ok (.list [.list hs, .list rs, .list as, .dict (asDict ks)]) }
      (Ex.outT [(c!"format_attributes", .dict [(.s c!"args", .list [.int 1]), (.s c!"kwargs", .dict (asDict [(c!"tablefmt", .str c!"grid")]))])] []) c!"tabulate" = some f ∧
    f (.list [.dict [(.s c!"a", .int 5)]]) = .ok (.list [.list [.str c!"a"], .list [.list [.int 5]], .list [.int 1], .dict [(.s c!"tablefmt", .str c!"grid")]]) := by
  obtain ⟨f, h1, _, h3⟩ := C118_tabulate _ (Ex.outT [(c!"format_attributes", .dict [(.s c!"args", .list [.int 1]), (.s c!"kwargs", .dict (asDict [(c!"tablefmt", .str c!"grid")]))])] [])
    (.list [.dict [(.s c!"a", .int 5)]]) [.s c!"a"] [[.int 5]] ⟨[], .str [], [], true, []⟩ rfl rfl
  exact ⟨f, h1, h3 [.int 1] [(c!"tablefmt", .str c!"grid")] rfl⟩

end Props
