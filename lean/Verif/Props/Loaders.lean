import Verif.Spec.Loaders
import Verif.Proofs.Files
import Verif.Model.Loaders
import Verif.Proofs.Outputs2
import Verif.Props.Json
import Verif.Props.CsvText
import Verif.Props.Tags
/-!
# C135: loaders of tags

`loadStruct C text (attrVals a)` is what a tag with this text and these attributes contains.
-/

namespace Props
open Py Spec TTP TTP.Loaders

theorem loadRead_names {w : World} {p : Str} {fs cs : List Str} (h : NamesFiles w p fs) (hc : All2 (fun f c => w.readFile f = .ok c) fs cs) :
    loadRead w p = .ok cs := by
  cases h with
  | file h1 h2 =>
    cases hc with | cons h3 hn => cases hn with | nil => exact loadRead_file (.file h1 h2 h3)
  | shared h1 h2 h3 h4 h5 =>
    cases hc with | cons h6 hn => cases hn with | nil => exact loadRead_file (.dir h1 h2 h3 h4 h5 h6)
  | dir h1 h2 h3 h4 =>
    have e : ((w.listdir p).filter (fun f => w.isFile (pathJoin p f))).mapM (fun f => w.readFile (pathJoin p f)) = .ok cs := by
      rw [List.filter_map] at hc
      have key : ∀ (l : List Str) (cs : List Str), All2 (fun f c => w.readFile f = .ok c) (l.map (fun f => p ++ '/' :: f)) cs →
          l.mapM (fun f => w.readFile (pathJoin p f)) = .ok cs := by
        intro l
        induction l with
        | nil => intro cs h; cases h; rfl
        | cons f l ih =>
          intro cs h
          rw [List.map_cons] at h
          cases h with
          | cons h1 h2 =>
            have h1' : w.readFile (pathJoin p f) = .ok _ := h1
            rw [List.mapM_cons, h1', ok_bind, ih _ h2]
            rfl
      exact key _ _ hc
    unfold loadRead
    rw [not_prefix_startsWith _ _ h1, h2]
    simp only [Bool.false_eq_true, if_false]
    cases ht : w.templatesDir with
    | none => simp only [h4, if_true]; exact e
    | some d =>
      have : (!d.isEmpty && w.isFile (pathJoin d (p.take 5000))) = false := by
        rcases h3 d ht with e | e
        · subst e; rfl
        · have e' : w.isFile (pathJoin d (p.take 5000)) = false := e
          rw [e']; simp
      simp only [this, Bool.false_eq_true, if_false, h4, if_true]
      exact e

theorem follows_iff {t : Str} {cs : List Str} {s : Str} (h : Follows t cs s) : s = t ++ (cs.map (fun f => '\n' :: f)).flatten := by
  induction h with
  | nil => simp
  | cons _ ih => rw [ih]; simp

theorem allText_ok {w : World} {a : Dict Str Str} {cs : List Str} {t s : Str} (h : Included w a cs) (hf : Follows t cs s) :
    allText w t (attrVals a) = .ok s := by
  have hs := follows_iff hf
  have inc : ∀ p, Dict.get? a c!"include" = some p → p ≠ [] → includeOf (attrVals a) = some p := by
    intro p h1 h2
    unfold includeOf
    rw [attrVals_get, h1]
    exact if_neg h2
  unfold allText
  cases h with
  | no h1 =>
    have : includeOf (attrVals a) = none := by
      unfold includeOf
      rw [attrVals_get]
      cases e : Dict.get? a c!"include" with
      | none => rfl
      | some p => cases h1 p e; rfl
    rw [this, hs]; simp [pure_ok]
  | text h1 h2 h3 =>
    rw [inc _ h1 h2]
    show includeData w t _ = _
    rw [includeData, loadRead_given h3, ok_bind, hs]; rfl
  | files h1 h2 h3 h4 =>
    rw [inc _ h1 h2]
    show includeData w t _ = _
    rw [includeData, loadRead_names h3 h4, ok_bind, hs]; rfl

theorem loadStruct_named {C : TplCtx} {text : Str} {a : Dict Str Str} {n : Str} (hd : HasData text a) (hn : Named a n) :
    loadStruct C (some text) (attrVals a) = (match C.loader n with
      | none => throw .keyError
      | some f => f text (attrVals a)) := by
  obtain ⟨l, h1, h2⟩ := hn
  unfold loadStruct
  rw [attrVals_get, h1]
  show (if _ then _ else _) = _
  rw [if_neg, h2]; rfl
  rintro ⟨e1, e2⟩
  rcases hd with h | h
  · exact h e1
  · rw [attrVals_get] at e2
    cases e : Dict.get? a c!"include" with
    | none => exact h e
    | some p => rw [e] at e2; cases e2

variable (C : TplCtx) (R : Readers) (hC : C.loader = loaders C.eng.world R)
include hC

omit hC in
/-- C135. A tag without text and without `include` contains nothing, whatever loader it names. -/
theorem C135_nothing (text : Option Str) (ht : text = none ∨ text = some []) (a : Dict Str Str) (hi : Dict.get? a c!"include" = none) :
    loadStruct C text (attrVals a) = .ok .none := by
  unfold loadStruct
  rw [attrVals_get, attrVals_get, hi]
  have e : text.getD [] = [] := by rcases ht with rfl | rfl <;> rfl
  cases Dict.get? a c!"load" with
  | none =>
    show (if _ then _ else _) = _
    rw [if_pos ⟨e, rfl⟩]; rfl
  | some l =>
    show (if _ then _ else _) = _
    rw [if_pos ⟨e, rfl⟩]; rfl

/-- C135. Without the attribute `load` the loader is `python`. -/
theorem C135_default (text : Option Str) (a : Dict Str Str) (hl : Dict.get? a c!"load" = none) :
    loadStruct C text (attrVals a) = loadStruct C text (attrVals (Dict.set a c!"load" c!"python")) := by
  unfold loadStruct
  rw [attrVals_get, hl, attrVals_get, attrVals_get, attrVals_get, Dict.get?_set_self, Dict.get?_set_ne _ _ (by decide)]
  show (if _ then _ else _) = (if _ then _ else _)
  split
  · rfl
  · have e : lower c!"python" = c!"python" := by decide
    rw [e, hC]
    have e2 : allText C.eng.world (text.getD []) (attrVals a) = allText C.eng.world (text.getD []) (attrVals (Dict.set a c!"load" c!"python")) := by
      unfold allText includeOf
      rw [attrVals_get, attrVals_get, Dict.get?_set_ne _ _ (by decide)]
    show (do loadPython R (← allText C.eng.world _ _)) = (do loadPython R (← allText C.eng.world _ _))
    rw [e2]

/-- C135. A loader that does not exist raises `KeyError` as soon as there is something to load. -/
theorem C135_unknown (text : Str) (a : Dict Str Str) (hd : HasData text a) (l : Str)
    (hn : Named a l) (hl : l ∉ [c!"text", c!"json", c!"csv", c!"python", c!"yaml", c!"ini"]) :
    loadStruct C (some text) (attrVals a) = .error .keyError := by
  rw [loadStruct_named hd hn, hC]
  simp only [List.mem_cons, List.not_mem_nil, or_false, not_or] at hl
  obtain ⟨h1, h2, h3, h4, h5, h6⟩ := hl
  have : loaders C.eng.world R l = none := by
    unfold loaders
    rw [if_neg h1, if_neg h2, if_neg h3, if_neg h4, if_neg h5, if_neg h6]
  rw [this]; rfl

/-- C135. With the loader `text` the tag contains its text as it is. Files named by `include` are ignored. -/
theorem C135_text (text : Str) (a : Dict Str Str) (hd : HasData text a) (hn : Named a c!"text") :
    loadStruct C (some text) (attrVals a) = .ok (.str text) := by
  rw [loadStruct_named hd hn, hC]; rfl

/-- C135. With the loader `json` the tag contains the value of the JSON document that its text and the included files make up, `None` if they
make up no document. -/
theorem C135_json (text : Str) (a : Dict Str Str) (hd : HasData text a) (hn : Named a c!"json") (cs : List Str)
    (hi : Included C.eng.world a cs) (s : Str) (hs : Follows text cs s) :
    (∀ v, JDocument R.float s v → loadStruct C (some text) (attrVals a) = .ok v) ∧
    ((¬ ∃ v, JDocument R.float s v) → loadStruct C (some text) (attrVals a) = .ok .none) := by
  have e : loadStruct C (some text) (attrVals a) = .ok (Json.loadJson R.float s) := by
    rw [loadStruct_named hd hn, hC]
    show (do pure (Json.loadJson R.float (← allText C.eng.world text (attrVals a))) : PyM Val) = _
    rw [allText_ok hi hs]; rfl
  rw [e]
  exact ⟨fun v hv => by rw [(C134_json R.float s).1 v hv], fun h => by rw [(C134_json R.float s).2 h]⟩

/-- C135. What the formatter `json` wrote can be put into a tag or a file for the loader `json`: the data are equal. -/
theorem C135_json_round_trip (v : Val) (hw : DeepWF v) (hf : FloatsOk R.float v) (hk : TextKeys v) (t : Str) (ht : Json.jsonFormatter v = .ok t)
    (a : Dict Str Str) (hn : Named a c!"json") :
    (Dict.get? a c!"include" = none → ∃ w, loadStruct C (some t) (attrVals a) = .ok w ∧ SameVal v w) ∧
    (∀ p, Dict.get? a c!"include" = some p → p ≠ [] → FileText C.eng.world p t →
      ∃ w, loadStruct C (some []) (attrVals a) = .ok w ∧ SameVal v w) := by
  obtain ⟨w, h1, h2⟩ := C133_equal R.float v t hw hf hk ht
  constructor
  · intro hi
    have hne : t ≠ [] := by
      rintro rfl
      have h3 := (Json.loads_iff R.float [] w).2 h1
      cases (rfl : Json.loads R.float [] = none).symm.trans h3
    exact ⟨w, (C135_json C R hC t a (.inl hne) hn [] (.no (by intro p hp; rw [hi] at hp; cases hp)) t .nil).1 w h1, h2⟩
  · intro p hp hne hft
    refine ⟨w, (C135_json C R hC [] a (.inr (by rw [hp]; intro e; cases e)) hn [t] (.text hp hne (.path hft)) ('\n' :: t) (.cons .nil)).1 w ?_, h2⟩
    obtain ⟨b, m, b', e, hb, hm, hb'⟩ := h1
    exact ⟨'\n' :: b, m, b', by rw [e]; rfl, by intro c hc; rcases List.mem_cons.1 hc with rfl | hc; (· decide); exact hb c hc, hm, hb'⟩

/-- C135. With the loader `csv` the tag contains the table that its text and the included files make up: the cells of the key column (attribute
`key`, else the first column) with the other cells of the last row that has them. -/
theorem C135_csv (text : Str) (a : Dict Str Str) (hd : HasData text a) (hn : Named a c!"csv") (cs : List Str)
    (hi : Included C.eng.world a cs) (s : Str) (hs : Follows text cs s) (h : Str) (hh : h ≠ []) (hds : List Str) (rows : List (List Str))
    (ht : CsvText s ((h :: hds) :: rows)) (hnd : (h :: hds).Nodup) (hl : ∀ r ∈ rows, r.length = hds.length + 1) :
    (∀ key, (Dict.get? a c!"key" = some key ∧ key ∈ h :: hds ∧ key ≠ []) ∨ ((Dict.get? a c!"key" = none ∨ Dict.get? a c!"key" = some []) ∧ key = h) →
      ∃ e, loadStruct C (some text) (attrVals a) = .ok (.dict e) ∧
        (∀ k, valueOf e k = ((rows.filter (fun r => decide (cellOf (h :: hds) r key = some k))).getLast?).map
          (fun r => .dict (otherCells (h :: hds) r key))) ∧
        ∀ q ∈ Dict.keys e, ∃ k, q = .s k) ∧
    (∀ key, Dict.get? a c!"key" = some key → key ≠ [] → key ∉ h :: hds → loadStruct C (some text) (attrVals a) = .ok (.dict [])) := by
  have e : loadStruct C (some text) (attrVals a) = (do pure (.dict (← Format.loadCsv ((Dict.get? a c!"key").getD []) s)) : PyM Val) := by
    rw [loadStruct_named hd hn, hC]
    show (do pure (.dict (← Format.loadCsv (textArg (attrVals a) c!"key") (← allText C.eng.world text (attrVals a)))) : PyM Val) = _
    rw [allText_ok hi hs, ok_bind]
    have : textArg (attrVals a) c!"key" = (Dict.get? a c!"key").getD [] := by
      unfold textArg
      rw [attrVals_get]
      cases Dict.get? a c!"key" <;> rfl
    rw [this]
  rw [e]
  constructor
  · rintro key (⟨h1, h2, h3⟩ | ⟨h1, rfl⟩)
    · obtain ⟨e, g1, g2, g3⟩ := C58_load_csv_text s _ rows ht hnd hl key h2 h3
      rw [h1, Option.getD_some, g1]
      exact ⟨e, rfl, g2, g3⟩
    · obtain ⟨e, g1, g2, g3⟩ := C58_load_csv_text s _ rows ht hnd hl key (by simp) hh
      have e0 : (Dict.get? a c!"key").getD [] = [] := by rcases h1 with h1 | h1 <;> rw [h1] <;> rfl
      rw [e0, (C58_key_column_text s key hds rows ht).1 hh, g1]
      exact ⟨e, rfl, g2, g3⟩
  · intro key h1 h2 h3
    rw [h1, Option.getD_some, (C58_key_column_text s h hds rows ht).2 key h2 h3]
    rfl

/-- C135. Python and YAML: text of blanks is an empty dictionary for `python`; other text is run, a `SyntaxError` gives `None`, any other
exception is raised. YAML that cannot be read gives an empty dictionary. -/
theorem C135_python_yaml (text : Str) (a : Dict Str Str) (hd : HasData text a) (cs : List Str)
    (hi : Included C.eng.world a cs) (s : Str) (hs : Follows text cs s) :
    (Named a c!"python" →
      ((∀ c ∈ s, isSpace c = true) → loadStruct C (some text) (attrVals a) = .ok (.dict [])) ∧
      ((∃ c ∈ s, isSpace c = false) →
        (∀ v, R.python s = .ok (some v) → loadStruct C (some text) (attrVals a) = .ok v) ∧
        (R.python s = .ok none → loadStruct C (some text) (attrVals a) = .ok .none) ∧
        (∀ x, R.python s = .error x → loadStruct C (some text) (attrVals a) = .error x))) ∧
    (Named a c!"yaml" →
      (∀ v, R.yaml s = some v → loadStruct C (some text) (attrVals a) = .ok v) ∧
      (R.yaml s = none → loadStruct C (some text) (attrVals a) = .ok (.dict []))) := by
  constructor
  · intro hn
    have e : loadStruct C (some text) (attrVals a) = loadPython R s := by
      rw [loadStruct_named hd hn, hC]
      show (do loadPython R (← allText C.eng.world text (attrVals a)) : PyM Val) = _
      rw [allText_ok hi hs]; rfl
    rw [e]
    have blank : strip s = [] ↔ ∀ c ∈ s, isSpace c = true := strip_eq_nil s
    unfold loadPython
    constructor
    · intro h
      rw [if_pos (blank.2 h)]; rfl
    · rintro ⟨c, hc, hsp⟩
      have hne : ¬ strip s = [] := fun h => by rw [blank.1 h c hc] at hsp; cases hsp
      rw [if_neg hne]
      refine ⟨fun v hv => by rw [hv]; rfl, fun hv => by rw [hv]; rfl, fun x hx => by rw [hx]; rfl⟩
  · intro hn
    have e : loadStruct C (some text) (attrVals a) = .ok (loadYaml R s) := by
      rw [loadStruct_named hd hn, hC]
      show (do pure (loadYaml R (← allText C.eng.world text (attrVals a))) : PyM Val) = _
      rw [allText_ok hi hs]; rfl
    rw [e]
    unfold loadYaml
    exact ⟨fun v hv => by rw [hv]; rfl, fun hv => by rw [hv]; rfl⟩

/-- C135. The loader `ini`: the sections that the parser has after reading the included files and then the text, without an empty section
`DEFAULT`. -/
theorem C135_ini (text : Str) (a : Dict Str Str) (hd : HasData text a) (hn : Named a c!"ini") (fs : List Str)
    (hi : (fs = [] ∧ ∀ p, Dict.get? a c!"include" = some p → p = []) ∨
      ∃ p, Dict.get? a c!"include" = some p ∧ p ≠ [] ∧ NamesFiles C.eng.world p fs) (hw : Dict.WF (R.ini fs text))
    (hv : ∀ n v, valueOf (R.ini fs text) n = some v → ∃ d, v = .dict d) :
    ∃ d, loadStruct C (some text) (attrVals a) = .ok (.dict d) ∧
      ∀ n, valueOf d n = if n = c!"DEFAULT" ∧ valueOf (R.ini fs text) n = some (.dict []) then none else valueOf (R.ini fs text) n := by
  have e : loadStruct C (some text) (attrVals a) = .ok (.dict (dropEmptyDefault (R.ini fs text))) := by
    rw [loadStruct_named hd hn, hC]
    show (pure (loadIni C.eng.world R text (attrVals a)) : PyM Val) = _
    unfold loadIni
    rcases hi with ⟨rfl, h⟩ | ⟨p, h1, h2, h3⟩
    · have : includeOf (attrVals a) = none := by
        unfold includeOf
        rw [attrVals_get]
        cases e : Dict.get? a c!"include" with
        | none => rfl
        | some p => cases h p e; rfl
      rw [this]; rfl
    · have : includeOf (attrVals a) = some p := by
        unfold includeOf
        rw [attrVals_get, h1]
        exact if_neg h2
      rw [this]
      dsimp only
      rw [loadFiles_names h3, List.map_map]
      have : fs.map (datumText ∘ fun f => (⟨.file, .str f⟩ : Datum)) = fs := by
        rw [show (datumText ∘ fun f => (⟨.file, .str f⟩ : Datum)) = id from rfl, List.map_id]
      rw [this]; rfl
  refine ⟨_, e, fun n => ?_⟩
  unfold dropEmptyDefault valueOf
  cases hD : Dict.get? (R.ini fs text) (.s c!"DEFAULT") with
  | none =>
    by_cases hn : n = c!"DEFAULT"
    · subst hn; rw [hD]; simp
    · simp [hn]
  | some v =>
    obtain ⟨d, rfl⟩ := hv _ _ hD
    dsimp only
    by_cases hn : n = c!"DEFAULT"
    · subst hn
      cases d with
      | nil =>
        rw [if_neg (by decide), Dict.get?_erase _ _ hw, if_pos rfl, hD]; simp
      | cons x xs =>
        have : (Val.dict (x :: xs)).truthy = true := rfl
        rw [if_pos this, hD]; simp
    · have hne : ¬ Key.s c!"DEFAULT" = Key.s n := by intro h; injection h with h; exact hn h.symm
      cases (Val.dict d).truthy with
      | true => simp [hn]
      | false =>
        simp only [Bool.false_eq_true, if_false]
        rw [Dict.get?_erase _ _ hw, if_neg hne]; simp [hn]

/-- C135, what does not hold: `include` of a file that does not exist is no error; the path itself is read as data - here as a row of the table
(for `json` the document is broken by it and the tag contains `None`). -/
theorem C135_missing_file (text : Str) (a : Dict Str Str) (hd : HasData text a) (p : Str) (hp : Dict.get? a c!"include" = some p) (hne : p ≠ [])
    (hm : NotAPath C.eng.world p) :
    (Named a c!"json" → loadStruct C (some text) (attrVals a) = .ok (Json.loadJson R.float (text ++ '\n' :: p))) ∧
    (Named a c!"csv" → Dict.get? a c!"key" = none → text = c!"name,ip" → p = c!"missing.csv,x" →
      loadStruct C (some text) (attrVals a) = .ok (.dict [(.s c!"missing.csv", .dict [(.s c!"ip", .str c!"x")])])) := by
  have e := allText_ok (t := text) (.text hp hne (.text hm)) (.cons .nil)
  constructor
  · intro hn
    rw [loadStruct_named hd hn, hC]
    show (do pure (Json.loadJson R.float (← allText C.eng.world text (attrVals a))) : PyM Val) = _
    rw [e]; rfl
  · rintro hn hk rfl rfl
    rw [loadStruct_named hd hn, hC]
    show (do pure (.dict (← Format.loadCsv (textArg (attrVals a) c!"key") (← allText C.eng.world _ (attrVals a)))) : PyM Val) = _
    rw [e, ok_bind]
    have : textArg (attrVals a) c!"key" = [] := by
      unfold textArg
      rw [attrVals_get, hk]; rfl
    rw [this]
    decide +kernel

omit hC

/-! ## Examples -/

namespace Ex

/-- one file and a directory with two -/
def lfiles : Dict Str Str := [(c!"t.csv", c!"Lo1,2.2.2.2"), (c!"d/a", c!"Lo2,3.3.3.3"), (c!"d/b", c!"Lo1,4.4.4.4")]
/-- the file system -/
def lworld : World := { world0 with
  isFile := fun p => (Dict.get? lfiles p).isSome
  isDir := fun p => p == c!"d"
  listdir := fun p => if p = c!"d" then [c!"b", c!"sub", c!"a"] else []
  readFile := fun p => match Dict.get? lfiles p with
    | some c => .ok c
    | none => .error .fileNotFound }
/-- readers of the other formats -/
def lreaders : Readers := ⟨id, fun s => if s = c!"x =" then .ok none else .ok (some (.str s)), fun s => if s = c!"a: b: c" then none else some (.str s),
  fun _ s => [(.s c!"DEFAULT", .dict []), (.s c!"s", .dict [(.s c!"k", .str s)])]⟩
/-- the loaders with these files -/
def lctx : TplCtx := { tctx with eng := { tctx.eng with world := lworld }, loader := loaders lworld lreaders }

end Ex

open Ex

/-- a file is added below the text of the tag -/
example : ∃ e, loadStruct lctx (some c!"name,ip\nLo0,1.1.1.1") (attrVals [(c!"load", c!"CSV"), (c!"include", c!"t.csv")]) = .ok (.dict e) ∧
    valueOf e c!"Lo1" = some (.dict [(.s c!"ip", .str c!"2.2.2.2")]) ∧ valueOf e c!"Lo0" = some (.dict [(.s c!"ip", .str c!"1.1.1.1")]) := by
  have one : ∀ l : Str, (l.all (fun c => !lineBreaks.contains c)) = true → OneLine l := by
    intro l h c hc hm
    have := List.all_eq_true.1 h c hc
    simp [hm] at this
  have two : ∀ a b : Str, (',' ∉ a) → (',' ∉ b) → '"' ∉ a → '"' ∉ b → CsvLine (a ++ ',' :: b) [a, b] := fun a b h1 h2 h3 h4 =>
    .cons (.plain _ h1 (by intro r h; subst h; simp at h3)) (.one (.plain _ h2 (by intro r h; subst h; simp at h4)))
  obtain ⟨e, h1, h2, _⟩ := (C135_csv lctx lreaders rfl c!"name,ip\nLo0,1.1.1.1" [(c!"load", c!"CSV"), (c!"include", c!"t.csv")] (.inl (by decide))
    ⟨c!"CSV", by decide, by decide⟩ [c!"Lo1,2.2.2.2"] (.files (p := c!"t.csv") (fs := [c!"t.csv"]) (by decide) (by decide) (.file (by decide) (by decide)) (.cons rfl .nil))
    _ (.cons .nil) c!"name" (by decide) [c!"ip"] [[c!"Lo0", c!"1.1.1.1"], [c!"Lo1", c!"2.2.2.2"]]
    (.line (l := c!"name,ip") (e := c!"\n") (one _ (by decide)) (by decide) (two c!"name" c!"ip" (by decide) (by decide) (by decide) (by decide)) (.inl rfl)
      (.line (l := c!"Lo0,1.1.1.1") (e := c!"\n") (one _ (by decide)) (by decide) (two c!"Lo0" c!"1.1.1.1" (by decide) (by decide) (by decide) (by decide)) (.inl rfl)
        (.last (one _ (by decide)) (by decide) (two c!"Lo1" c!"2.2.2.2" (by decide) (by decide) (by decide) (by decide)))))
    (by decide) (by decide)).1 c!"name" (.inr ⟨.inl (by decide), rfl⟩)
  exact ⟨e, h1, by rw [h2]; decide +kernel, by rw [h2]; decide +kernel⟩

/-- all files of a directory are included -/
example : Included lworld [(c!"include", c!"d")] [c!"Lo1,4.4.4.4", c!"Lo2,3.3.3.3"] :=
  .files (p := c!"d") (by decide) (by decide) (.dir (by decide) (by decide) (by intro d h; cases h) (by decide)) (.cons rfl (.cons rfl .nil))

/-- a JSON tag, a broken one, and one with a missing file -/
example : loadStruct lctx (some c!" [1, 2]\n") (attrVals [(c!"load", c!"json")]) = .ok (.list [.int 1, .int 2]) :=
  (C135_json lctx lreaders rfl _ _ (.inl (by decide)) ⟨_, rfl, by decide⟩ [] (.no (by intro p h; cases h)) _ .nil).1 _
    ((Json.loads_iff _ _ _).1 (by decide +kernel))
example : loadStruct lctx (some c!"[1, 2]") (attrVals [(c!"load", c!"json"), (c!"include", c!"no.json")]) = .ok .none := by
  rw [(C135_missing_file lctx lreaders rfl c!"[1, 2]" _ (.inl (by decide)) c!"no.json" rfl (by decide) ⟨by decide, by decide, by decide, by intro d h; cases h⟩).1 ⟨_, rfl, by decide⟩]
  decide +kernel

/-- an empty section DEFAULT is dropped -/
example : ∃ d, loadStruct lctx (some c!"T") (attrVals [(c!"load", c!"ini")]) = .ok (.dict d) ∧ valueOf d c!"DEFAULT" = none ∧ valueOf d c!"s" = some (.dict [(.s c!"k", .str c!"T")]) := by
  obtain ⟨d, h1, h2⟩ := C135_ini lctx lreaders rfl c!"T" [(c!"load", c!"ini")] (.inl (by decide)) ⟨_, rfl, by decide⟩ [] (.inl ⟨rfl, by intro p h; cases h⟩)
    (by unfold Dict.WF; decide) (by
      intro n v h
      have : (v = .dict [] ∨ v = .dict [(.s c!"k", .str c!"T")]) := by
        have hm := Dict.mem_of_get? _ _ _ h
        simp only [lreaders, List.mem_cons, List.not_mem_nil, or_false, Prod.mk.injEq] at hm
        rcases hm with h | h
        · exact .inl h.2
        · exact .inr h.2
      rcases this with rfl | rfl <;> exact ⟨_, rfl⟩)
  exact ⟨d, h1, by rw [h2]; decide, by rw [h2]; decide⟩

example : loadStruct lctx (some c!" \n") (attrVals []) = .ok (.dict []) := by
  rw [C135_default lctx lreaders rfl _ _ rfl]
  exact ((C135_python_yaml lctx lreaders rfl c!" \n" [(c!"load", c!"python")] (.inl (by decide)) [] (.no (by intro p h; cases h)) _ .nil).1 ⟨_, rfl, by decide⟩).1 (by decide)
example : loadStruct lctx (some c!"x =") (attrVals [(c!"load", c!"python")]) = .ok .none :=
  (((C135_python_yaml lctx lreaders rfl c!"x =" [(c!"load", c!"python")] (.inl (by decide)) [] (.no (by intro p h; cases h)) _ .nil).1 ⟨_, rfl, by decide⟩).2 (by decide)).2.1 (by rfl)
example : loadStruct lctx (some c!"a: b: c") (attrVals [(c!"load", c!"yaml")]) = .ok (.dict []) :=
  ((C135_python_yaml lctx lreaders rfl c!"a: b: c" [(c!"load", c!"yaml")] (.inl (by decide)) [] (.no (by intro p h; cases h)) _ .nil).2 ⟨_, rfl, by decide⟩).2 (by rfl)
example : loadStruct lctx (some c!"x") (attrVals [(c!"load", c!"xml")]) = .error .keyError :=
  C135_unknown lctx lreaders rfl _ _ (.inl (by decide)) c!"xml" ⟨_, rfl, by decide⟩ (by decide)

/-- the results of two groups, written with the formatter `json`, are read back -/
example : ∃ t w, Json.jsonFormatter jres = .ok t ∧ loadStruct lctx (some t) (attrVals [(c!"load", c!"json")]) = .ok w ∧ SameVal jres w := by
  obtain ⟨t, ht⟩ := (C133_defined jres).1 jres_kind
  obtain ⟨w, h1, h2⟩ := (C135_json_round_trip lctx lreaders rfl jres jres_wf jres_floats jres_keys t ht [(c!"load", c!"json")] ⟨_, rfl, by decide⟩).1 rfl
  exact ⟨t, w, ht, h1, h2⟩

end Props
