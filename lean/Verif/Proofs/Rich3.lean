import Verif.Proofs.Rich2
/-! # Lemmas: loading of a group with such lines -/

namespace TTP
open Py Spec Re

/-! ## A line -/

/-- pieces as the loader cuts them -/
def rawPiece : RPiece → Piece
  | .text t => .text t
  | .var _ b => .var b
  | .ign _ b => .var b

/-- a line as the loader cuts it -/
def rawLine (l : RLine) : TLine := ⟨l.indent, l.pieces.map rawPiece, l.trail⟩

/-- the pieces as they are loaded -/
def richDefs : List RPiece → List (Elem VarDef)
  | [] => []
  | .text t :: ps => t.map .ch ++ richDefs ps
  | .var v _ :: ps => .var (richDef v) :: richDefs ps
  | .ign e _ :: ps => .var (ignDef e) :: richDefs ps

/-- the variables of a line as the line compiler sees them -/
def infosOf : List RPiece → List VarInfo
  | [] => []
  | .text _ :: ps => infosOf ps
  | .var v _ :: ps => richInfo v :: infosOf ps
  | .ign e _ :: ps => ignInfo e :: infosOf ps

theorem infosOf_foldl {α : Type} (f : α → VarInfo → α) (hf : ∀ a e, f a (ignInfo e) = a) (ps : List RPiece) (a : α) :
    (infosOf ps).foldl f a = ((varsOf ps).map richInfo).foldl f a := by
  induction ps generalizing a with
  | nil => rfl
  | cons p ps ih =>
    cases p with
    | text t => exact ih a
    | var v b => exact ih _
    | ign e b => show (infosOf ps).foldl f (f a (ignInfo e)) = _; rw [hf]; exact ih a

theorem lineVars_infos (ps : List RPiece) : lineVars (infosOf ps) = lineVars ((varsOf ps).map richInfo) :=
  infosOf_foldl _ (fun _ _ => rfl) ps []

theorem lineAction_infos (ps : List RPiece) : lineAction (infosOf ps) = lineAction ((varsOf ps).map richInfo) := by
  refine infosOf_foldl _ (fun a e => ?_) ps Action.add
  have : ((ignInfo e).name == c!"ignore") = true := rfl
  simp only [this, Bool.or_true, if_true]

theorem raw_source (ps : List RPiece) : ((ps.map rawPiece).map Piece.source).flatten = (ps.map RPiece.source).flatten := by
  congr 1
  rw [List.map_map]
  apply List.map_congr_left
  intro p _
  cases p <;> rfl

theorem rawLine_source (l : RLine) : (rawLine l).source = l.source := by
  unfold TLine.source RLine.source RLine.body rawLine
  rw [raw_source]

theorem mem_varsOf (ps : List RPiece) (v : RVar) : v ∈ varsOf ps ↔ ∃ b, RPiece.var v b ∈ ps := by
  induction ps with
  | nil => simp [varsOf]
  | cons p ps ih =>
    cases p with
    | text t => simp [varsOf, ih]
    | ign e b => simp [varsOf, ih]
    | var w b =>
      simp only [varsOf, List.mem_cons, ih, RPiece.var.injEq]
      constructor
      · rintro (rfl | ⟨b', h⟩)
        · exact ⟨b, Or.inl ⟨rfl, rfl⟩⟩
        · exact ⟨b', Or.inr h⟩
      · rintro ⟨b', ⟨h, _⟩ | h⟩
        · exact Or.inl h
        · exact Or.inr ⟨b', h⟩

theorem meant_ne (ctx : LoadCtx) (v : RVar) (ho : v.OK) (b : Str) (hw : v.Meant ctx b) : b ≠ [] := by
  rintro rfl
  obtain ⟨fs, h⟩ := meant_attrs ctx v ho [] hw
  cases h

theorem raw_text (ps : List RPiece) (t : Str) : Piece.text t ∈ ps.map rawPiece ↔ RPiece.text t ∈ ps := by
  simp only [List.mem_map]
  constructor
  · rintro ⟨p, hp, e⟩
    cases p with
    | text t' => simp only [rawPiece, Piece.text.injEq] at e; subst e; exact hp
    | var v b => simp [rawPiece] at e
    | ign x b => simp [rawPiece] at e
  · intro h; exact ⟨_, h, rfl⟩

theorem raw_var (ps : List RPiece) (b : Str) : Piece.var b ∈ ps.map rawPiece ↔ (∃ v, RPiece.var v b ∈ ps) ∨ ∃ e, RPiece.ign e b ∈ ps := by
  simp only [List.mem_map]
  constructor
  · rintro ⟨p, hp, e⟩
    cases p with
    | text t' => simp [rawPiece] at e
    | var v b' => simp only [rawPiece, Piece.var.injEq] at e; subst e; exact Or.inl ⟨v, hp⟩
    | ign x b' => simp only [rawPiece, Piece.var.injEq] at e; subst e; exact Or.inr ⟨x, hp⟩
  · rintro (⟨v, h⟩ | ⟨v, h⟩) <;> exact ⟨_, h, rfl⟩

theorem ign_ne (ctx : LoadCtx) (e : Option Str) (b : Str) (hw : IgnMeant ctx e b) : b ≠ [] := by
  rintro rfl
  obtain ⟨as, kw, h, _⟩ := ign_attrs ctx e [] hw
  cases h

theorem rawLine_ok (ctx : LoadCtx) (l : RLine) (ho : l.OK ctx) : (rawLine l).OK := by
  refine ⟨fun c hc => blank_space c (ho.indent c hc), fun c hc => blank_space c (ho.trail c hc), ?_, ?_, ?_, ?_, ?_, ?_⟩
  · intro t ht
    exact (ho.text t ((raw_text _ _).1 ht)).1
  · intro b hb
    rcases (raw_var _ _).1 hb with ⟨v, hv⟩ | ⟨e, he⟩
    · obtain ⟨h1, h2, h3, _⟩ := ho.var v b hv
      exact ⟨meant_ne ctx v h1 b h2, h3⟩
    · obtain ⟨h1, h2, h3, _⟩ := ho.ign e b he
      exact ⟨ign_ne ctx e b h2, h3⟩
  · intro e
    obtain ⟨v, vs, ev⟩ := List.exists_cons_of_ne_nil ho.some
    obtain ⟨b, hb⟩ := (mem_varsOf l.pieces v).1 (by rw [ev]; simp)
    have : b ∈ (rawLine l).contents := List.mem_filterMap.2 ⟨.var b, (raw_var _ _).2 (Or.inl ⟨v, hb⟩), rfl⟩
    rw [e] at this; cases this
  · simp only [rawLine, raw_source]; exact ho.first
  · simp only [rawLine, raw_source]; exact ho.last
  · simp only [rawLine, raw_source]; exact ho.comment

theorem loadVar_dflt (ctx : LoadCtx) (dflt : Val) (line b : Str) (d : Dict Key Val) (head : FnCall) (attrs : List FnCall)
    (h : getAttributes ctx b = .ok (head :: attrs)) :
    loadVar ctx dflt line b d = loadVar ctx (.str c!"_Not_Given_") line b (groupDefault dflt head.name d) := by
  unfold loadVar
  have hg : ∀ d, groupDefault (.str c!"_Not_Given_") head.name d = d := by intro d; simp [groupDefault]
  simp only [h, ok_bind, hg]

theorem groupDefault_ign (dflt : Val) (d : Dict Key Val) : groupDefault dflt c!"ignore" d = d := by
  unfold groupDefault
  have : decide (c!"ignore" ∉ skipDefaults) = false := by decide
  cases dflt <;> simp only [this, Bool.and_false, Bool.false_eq_true, if_false]

theorem lineVariables_richD (ctx : LoadCtx) (hp : ctx.patterns = getPattern) (hre : ctx.re = ReText.compile) (dflt : Val) (line : Str) (ps : List RPiece)
    (hv : ∀ v b, RPiece.var v b ∈ ps → v.OK ∧ v.Meant ctx b)
    (hi : ∀ e b, RPiece.ign e b ∈ ps → (∀ t, e = some t → LineExpr t) ∧ IgnMeant ctx e b) (d : Dict Key Val) :
    lineVariables ctx dflt line (pieceEls (ps.map rawPiece)) d =
      .ok (richDefs ps, (varsOf ps).foldl (fun d v => setDefaults v (groupDefault dflt v.name d)) d, false) := by
  induction ps generalizing d with
  | nil => rfl
  | cons p ps ih =>
    have ih' := ih (fun v b h => hv v b (by simp [h])) (fun e b h => hi e b (by simp [h]))
    cases p with
    | ign e b =>
      obtain ⟨h1, h2⟩ := hi e b (by simp)
      obtain ⟨as, kw, hfs, _⟩ := ign_attrs ctx e b h2
      simp only [List.map_cons, rawPiece, pieceEls, lineVariables, loadVar_dflt ctx dflt line b _ _ _ hfs, groupDefault_ign,
        loadVar_ign ctx hre e h1 line b h2, ok_bind, ih', pure_ok, Bool.or_self, richDefs, varsOf]
    | text t => exact lineVariables_chars _ _ _ _ _ _ _ _ _ (ih' d)
    | var v b =>
      obtain ⟨h1, h2⟩ := hv v b (by simp)
      obtain ⟨fs', hfs⟩ := meant_attrs ctx v h1 b h2
      simp only [List.map_cons, rawPiece, pieceEls, lineVariables, loadVar_dflt ctx dflt line b _ _ _ hfs,
        loadVar_rich ctx hp hre v h1 line b h2, ok_bind, ih', pure_ok, Bool.or_self, richDefs, varsOf, List.foldl_cons]

theorem lineVariables_rich (ctx : LoadCtx) (hp : ctx.patterns = getPattern) (hre : ctx.re = ReText.compile) (line : Str) (ps : List RPiece)
    (hv : ∀ v b, RPiece.var v b ∈ ps → v.OK ∧ v.Meant ctx b)
    (hi : ∀ e b, RPiece.ign e b ∈ ps → (∀ t, e = some t → LineExpr t) ∧ IgnMeant ctx e b) (d : Dict Key Val) :
    lineVariables ctx (.str c!"_Not_Given_") line (pieceEls (ps.map rawPiece)) d =
      .ok (richDefs ps, (varsOf ps).foldl (fun d v => setDefaults v d) d, false) := by
  induction ps generalizing d with
  | nil => rfl
  | cons p ps ih =>
    have ih' := ih (fun v b h => hv v b (by simp [h])) (fun e b h => hi e b (by simp [h]))
    cases p with
    | ign e b =>
      obtain ⟨h1, h2⟩ := hi e b (by simp)
      simp only [List.map_cons, rawPiece, pieceEls, lineVariables, loadVar_ign ctx hre e h1 line b h2, ok_bind, ih', pure_ok,
        Bool.or_self, richDefs, varsOf]
    | text t => exact lineVariables_chars _ _ _ _ _ _ _ _ _ (ih' d)
    | var v b =>
      obtain ⟨h1, h2⟩ := hv v b (by simp)
      simp only [List.map_cons, rawPiece, pieceEls, lineVariables, loadVar_rich ctx hp hre v h1 line b h2, ok_bind, ih', pure_ok,
        Bool.or_self, richDefs, varsOf, List.foldl_cons]

theorem richDefs_els (ps : List RPiece) (hv : ∀ v b, RPiece.var v b ∈ ps → v.OK) :
    (richDefs ps).map tplInfoEl = richEls ps := by
  induction ps with
  | nil => rfl
  | cons p ps ih =>
    have ih' := ih (fun v b h => hv v b (by simp [h]))
    cases p with
    | text t => simp [richDefs, richEls, chs, ih', tplInfoEl, Function.comp_def]
    | var v b => simp only [richDefs, List.map_cons, tplInfoEl, varInfo_rich v (hv v b (by simp)), ih', richEls]
    | ign e b => simp only [richDefs, List.map_cons, tplInfoEl, varInfo_ign, ih', richEls]

theorem elemVars_rich (ps : List RPiece) : elemVars (richEls ps) = infosOf ps := by
  induction ps with
  | nil => rfl
  | cons p ps ih =>
    cases p with
    | text t => simp only [richEls, elemVars_append, infosOf, ih]; rw [show elemVars (chs t) = ([] : List VarInfo) from elemVars_chars t]; rfl
    | var v b => simp [richEls, elemVars, infosOf, ih]
    | ign e b => simp [richEls, elemVars, infosOf, ih]

theorem names_rich (ctx : LoadCtx) (l : RLine) (ho : l.OK ctx) : ReText.names (RichRe l) = (varsOf l.pieces).map (·.name) := by
  unfold RichRe
  rw [names_line, cutElems_items _ _ (richEls_noCut l.pieces), elemVars_rich]
  have hv : ∀ v b, RPiece.var v b ∈ l.pieces → v.OK := fun v b h => (ho.var v b h).1
  have hi : ∀ e b, RPiece.ign e b ∈ l.pieces → ∀ t, e = some t → LineExpr t := fun e b h => (ho.ign e b h).1
  revert hv hi
  generalize l.pieces = ps
  intro hv hi
  induction ps with
  | nil => rfl
  | cons p ps ih =>
   have ih' := ih (fun v b h => hv v b (by simp [h])) (fun e b h => hi e b (by simp [h]))
   cases p with
   | text t => exact ih'
   | ign e b =>
    show ReText.names (varRe (ignInfo e)) ++ (infosOf ps).flatMap _ = _
    rw [ih', (ign_lang e (hi e b (by simp))).2]
    rfl
   | var v b =>
    show ReText.names (varRe (richInfo v)) ++ (infosOf ps).flatMap _ = v.name :: (varsOf ps).map (·.name)
    rw [ih']
    have : ReText.names (varRe (richInfo v)) = [v.name] := by
      show v.name :: ReText.names (altAll (exprsOf v)) = _
      rw [exprsOf, (lang_altAll v.opts (hv v b (by simp)).opts).2]
    rw [this]; rfl

/-- the entry of a line -/
def richRx (l : RLine) : LineRx :=
  ⟨RichRe l, lineVars ((varsOf l.pieces).map richInfo), lineAction ((varsOf l.pieces).map richInfo), false⟩

theorem rich_vars_ok (ctx : LoadCtx) (l : RLine) (ho : l.OK ctx) (v : RVar) (hv : v ∈ varsOf l.pieces) : v.OK := by
  obtain ⟨b, hb⟩ := (mem_varsOf _ _).1 hv
  exact (ho.var v b hb).1

/-- defaults of a line -/
def lineDefaults (l : RLine) (d : Dict Key Val) : Dict Key Val := (varsOf l.pieces).foldl (fun d v => setDefaults v d) d

/-- defaults of a line in a group with a default -/
def lineDefaultsD (dflt : Val) (l : RLine) (d : Dict Key Val) : Dict Key Val :=
  (varsOf l.pieces).foldl (fun d v => setDefaults v (groupDefault dflt v.name d)) d

theorem lineDefaultsD_none (l : RLine) (d : Dict Key Val) : lineDefaultsD (.str c!"_Not_Given_") l d = lineDefaults l d := by
  have : ∀ v : RVar, ∀ d, groupDefault (.str c!"_Not_Given_") v.name d = d := by intro v d; simp [groupDefault]
  simp only [lineDefaultsD, lineDefaults, this]

theorem loadLine_richD (ctx : LoadCtx) (hp : ctx.patterns = getPattern) (hre : ctx.re = ReText.compile) (dflt : Val) (l : RLine) (ho : l.OK ctx)
    (d : Dict Key Val) : loadLine ctx dflt l.source d = .ok (some (richRx l), lineDefaultsD dflt l d) := by
  obtain ⟨e1, e2, e3, e4, _⟩ := elems_line (rawLine l) (rawLine_ok ctx l ho)
  rw [rawLine_source] at e1 e2 e3 e4
  have hb : ((rawLine l).pieces.map Piece.source).flatten = l.body := raw_source l.pieces
  rw [hb] at e1 e2
  have x3 : Py.contains (rstrip l.source) c!"_exact_" = false := by
    cases h : Py.contains (rstrip l.source) c!"_exact_" with
    | false => rfl
    | true => rw [e1] at h; exact absurd ((contains_iff _ _).1 h) ho.exact
  have x4 : Py.contains (rstrip l.source) c!"_exact_space_" = false := by
    cases h : Py.contains (rstrip l.source) c!"_exact_space_" with
    | false => rfl
    | true =>
      rw [e1] at h
      have h2 := (contains_iff _ _).1 h
      exact absurd (List.IsInfix.trans ⟨[], c!"space_", rfl⟩ h2) ho.exact
  have hvo : ∀ v b, RPiece.var v b ∈ l.pieces → v.OK ∧ v.Meant ctx b := fun v b h => ⟨(ho.var v b h).1, (ho.var v b h).2.1⟩
  have hio : ∀ e b, RPiece.ign e b ∈ l.pieces → (∀ t, e = some t → LineExpr t) ∧ IgnMeant ctx e b :=
    fun e b h => ⟨(ho.ign e b h).1, (ho.ign e b h).2.1⟩
  have e6 : ∀ (f : Elem VarDef → Elem VarInfo), (∀ x, f x = tplInfoEl x) → (richDefs l.pieces).map f = richEls l.pieces := by
    intro f hf
    rw [← richDefs_els l.pieces (fun v b h => (hvo v b h).1)]
    exact List.map_congr_left (fun x _ => hf x)
  have e7 : headersVar ctx (elems (lstrip (rstrip l.source))) = none := by
    apply headersVar_none
    intro b hb f fs hf
    rw [e3, elemVars_pieces] at hb
    obtain ⟨p, hpm, hpe⟩ := List.mem_filterMap.1 hb
    cases p with
    | text t => cases hpe
    | var b' =>
      simp only [Option.some.injEq] at hpe
      subst hpe
      rcases (raw_var _ _).1 hpm with ⟨v, hv⟩ | ⟨e, he⟩
      · obtain ⟨h1, h2⟩ := hvo v _ hv
        obtain ⟨fs', hfs⟩ := meant_attrs ctx v h1 _ h2
        rw [hfs] at hf
        simp only [Except.ok.injEq, List.cons.injEq] at hf
        rw [← hf.1]
        simp only [sanitize_word v.name h1.name.2.1 h1.name.2.2.1]
        exact (not_reserved _ h1.name.2.2.2).2.2.2.2.2.2
      · obtain ⟨as, kw, hfs, _⟩ := ign_attrs ctx e _ (hio e _ he).2
        rw [hfs] at hf
        simp only [Except.ok.injEq, List.cons.injEq] at hf
        rw [← hf.1]
        show sanitize c!"ignore" ≠ _
        decide
  unfold loadLine
  simp only [e7, x3, x4]
  rw [e3]
  simp only [rawLine]
  rw [lineVariables_richD ctx hp hre dflt _ l.pieces hvo hio]
  simp only [ok_bind, Bool.false_eq_true, if_false, compileLine]
  rw [e6 _ (by intro x; cases x <;> rfl), e2, e1]
  have : List.take ((l.indent ++ l.body).length - l.body.length) (l.indent ++ l.body) = l.indent := by simp
  rw [show (rawLine l).indent = l.indent from rfl, this, elemVars_rich]
  have hl : (infosOf l.pieces).any (·.isLine) = false := by
    generalize l.pieces = ps
    induction ps with
    | nil => rfl
    | cons p ps ih => cases p <;> simpa [infosOf, richInfo, ignInfo] using ih
  rw [hl, lineVars_infos, lineAction_infos]
  show compiled (richRx l) >>= _ = _
  rw [compiled_ok _ (by show (ReText.names (RichRe l)).Nodup; rw [names_rich ctx l ho]; exact ho.names)]
  rfl

theorem loadLine_rich (ctx : LoadCtx) (hp : ctx.patterns = getPattern) (hre : ctx.re = ReText.compile) (l : RLine) (ho : l.OK ctx)
    (d : Dict Key Val) : loadLine ctx (.str c!"_Not_Given_") l.source d = .ok (some (richRx l), lineDefaults l d) := by
  rw [loadLine_richD ctx hp hre _ l ho, lineDefaultsD_none]

theorem rich_notSkipped (ctx : LoadCtx) (l : RLine) (ho : l.OK ctx) : lineSkipped l.source = false := by
  have := (elems_line (rawLine l) (rawLine_ok ctx l ho)).2.2.2.2
  rwa [rawLine_source] at this

theorem loadLines_richD (ctx : LoadCtx) (hp : ctx.patterns = getPattern) (hre : ctx.re = ReText.compile) (dflt : Val) (tpl : List RLine)
    (ho : ∀ l ∈ tpl, l.OK ctx) (d : Dict Key Val) :
    loadLines ctx dflt (tpl.map RLine.source) d = .ok (tpl.map richRx, tpl.foldl (fun d l => lineDefaultsD dflt l d) d) := by
  induction tpl generalizing d with
  | nil => rfl
  | cons l tpl ih =>
    simp only [List.map_cons, loadLines, rich_notSkipped ctx l (ho l (by simp)), Bool.false_eq_true, if_false,
      loadLine_richD ctx hp hre dflt l (ho l (by simp)), ok_bind, ih (fun l' hl => ho l' (by simp [hl])), pure_ok, Option.toList_some,
      List.singleton_append, List.foldl_cons]

theorem loadLines_rich (ctx : LoadCtx) (hp : ctx.patterns = getPattern) (hre : ctx.re = ReText.compile) (tpl : List RLine)
    (ho : ∀ l ∈ tpl, l.OK ctx) (d : Dict Key Val) :
    loadLines ctx (.str c!"_Not_Given_") (tpl.map RLine.source) d = .ok (tpl.map richRx, tpl.foldl (fun d l => lineDefaults l d) d) := by
  induction tpl generalizing d with
  | nil => rfl
  | cons l tpl ih =>
    simp only [List.map_cons, loadLines, rich_notSkipped ctx l (ho l (by simp)), Bool.false_eq_true, if_false,
      loadLine_rich ctx hp hre l (ho l (by simp)), ok_bind, ih (fun l' hl => ho l' (by simp [hl])), pure_ok, Option.toList_some,
      List.singleton_append, List.foldl_cons]

theorem foldl_richDefaults (tpl : List RLine) (d : Dict Key Val) : tpl.foldl (fun d l => lineDefaults l d) d =
    ((tpl.flatMap (fun l => varsOf l.pieces)).flatMap (fun v => v.dflts.map (fun x => (v.name, x)))).foldl
      (fun d nx => Dict.set d (.s nx.1) nx.2) d := by
  have one : ∀ (vs : List RVar) (d : Dict Key Val), vs.foldl (fun d v => setDefaults v d) d =
      (vs.flatMap (fun v => v.dflts.map (fun x => (v.name, x)))).foldl (fun d nx => Dict.set d (.s nx.1) nx.2) d := by
    intro vs
    induction vs with
    | nil => intro d; rfl
    | cons v vs ih => intro d; rw [List.foldl_cons, ih, setDefaults_eq, List.flatMap_cons, List.foldl_append]
  induction tpl generalizing d with
  | nil => rfl
  | cons l tpl ih =>
    rw [List.foldl_cons, ih, lineDefaults, one, List.flatMap_cons, List.flatMap_append, List.foldl_append]

theorem oneLined_noBreak (s : Str) (h : OneLined s) : ∀ c ∈ s, Format.isBreak c = false := by
  intro c hc
  rcases h c hc with h | h
  · exact blank_noBreak c h
  · exact nspace_noBreak c h

theorem rich_noBreak (ctx : LoadCtx) (l : RLine) (ho : l.OK ctx) : ∀ c ∈ l.source, Format.isBreak c = false := by
  intro c hc
  simp only [RLine.source, List.mem_append, or_assoc] at hc
  rcases hc with hc | hc | hc
  · exact blank_noBreak c (ho.indent c hc)
  · simp only [RLine.body, List.mem_flatten, List.mem_map] at hc
    obtain ⟨_, ⟨p, hp, rfl⟩, hc⟩ := hc
    cases p with
    | text t => exact oneLined_noBreak t (ho.text t hp).2 c hc
    | var v b =>
      simp only [RPiece.source, List.mem_append, or_assoc] at hc
      rcases hc with hc | hc | hc
      · revert hc; simp only [List.mem_cons, List.not_mem_nil, or_false]; rintro (rfl | rfl) <;> decide
      · exact oneLined_noBreak b (ho.var v b hp).2.2.2 c hc
      · revert hc; simp only [List.mem_cons, List.not_mem_nil, or_false]; rintro (rfl | rfl) <;> decide
    | ign e b =>
      simp only [RPiece.source, List.mem_append, or_assoc] at hc
      rcases hc with hc | hc | hc
      · revert hc; simp only [List.mem_cons, List.not_mem_nil, or_false]; rintro (rfl | rfl) <;> decide
      · exact oneLined_noBreak b (ho.ign e b hp).2.2.2 c hc
      · revert hc; simp only [List.mem_cons, List.not_mem_nil, or_false]; rintro (rfl | rfl) <;> decide
  · exact blank_noBreak c (ho.trail c hc)

theorem splitlines_rich (ctx : LoadCtx) (tpl : List RLine) (ho : ∀ l ∈ tpl, l.OK ctx) :
    Format.splitlines ('\n' :: (tpl.map (fun l => l.source ++ c!"\n")).flatten) = [] :: tpl.map RLine.source := by
  have key : ∀ tpl : List RLine, (∀ l ∈ tpl, l.OK ctx) →
      Format.splitlinesAux [] (tpl.map (fun l => l.source ++ c!"\n")).flatten = tpl.map RLine.source := by
    intro tpl
    induction tpl with
    | nil => intro _; rfl
    | cons l tpl ih =>
      intro ho
      have := Format.splitlinesAux_break [] l.source (tpl.map (fun l => l.source ++ c!"\n")).flatten (rich_noBreak ctx l (ho l (by simp)))
      simp only [List.map_cons, List.flatten_cons, List.append_assoc, List.cons_append, List.nil_append]
      rw [this, ih (fun l' hl => ho l' (by simp [hl]))]
      rfl
  have := Format.splitlinesAux_break [] [] (tpl.map (fun l => l.source ++ c!"\n")).flatten (by simp)
  simp only [List.nil_append] at this
  unfold Format.splitlines
  rw [this, key tpl ho]

/-! ## Kinds of lines -/

theorem mark_cases (v : RVar) : v.mark = none ∨ v.mark = some true ∨ v.mark = some false := by
  rcases h : v.mark with _ | _ | _ <;> simp

theorem lineAction_rich (vs : List RVar) (hn : ∀ v ∈ vs, v.name ≠ c!"ignore") (a : Action) :
    (vs.map richInfo).foldl (fun a v => if a.isStart || v.name == c!"ignore" then a else v.action) a =
      if a.isStart then a else if vs.any (fun v => v.mark = some true) then .start
      else match vs.getLast? with
        | none => a
        | some v => markAction v.mark := by
  induction vs generalizing a with
  | nil => simp
  | cons v vs ih =>
    have hv : (v.name == c!"ignore") = false := by simpa using hn v (by simp)
    have hv' : ((richInfo v).name == c!"ignore") = false := hv
    rw [List.map_cons, List.foldl_cons, hv', Bool.or_false, ih (fun w hw => hn w (by simp [hw]))]
    by_cases ha : a.isStart = true
    · simp [ha]
    · simp only [ha, Bool.false_eq_true, if_false, List.any_cons]
      have hact : (richInfo v).action = markAction v.mark := rfl
      rw [hact]
      rcases mark_cases v with hm | hm | hm
      · simp only [hm, markAction, Action.isStart, Bool.false_eq_true, if_false, reduceCtorEq, decide_false, Bool.false_or]
        cases vs with
        | nil => simp [hm, markAction]
        | cons w ws =>
          rw [List.getLast?_cons_cons]
          cases hw : (w :: ws).getLast? with
          | none => simp at hw
          | some x => rfl
      · simp [hm, markAction, Action.isStart]
      · simp only [hm, markAction, Action.isStart, Bool.false_eq_true, if_false, Option.some.injEq, decide_false, Bool.false_or]
        cases vs with
        | nil => simp [hm, markAction]
        | cons w ws =>
          rw [List.getLast?_cons_cons]
          cases hw : (w :: ws).getLast? with
          | none => simp at hw
          | some x => rfl

/-- number and line to the entry -/
def richAt (j : Nat) (l : RLine) : LineRx := if kindOf j l = .start then { richRx l with action := .start } else richRx l

theorem richAt_re (j : Nat) (l : RLine) : (richAt j l).re = RichRe l := by unfold richAt; split <;> rfl
theorem richAt_vars (j : Nat) (l : RLine) : (richAt j l).vars = (richRx l).vars := by unfold richAt; split <;> rfl
theorem richAt_isLine (j : Nat) (l : RLine) : (richAt j l).isLine = false := by unfold richAt; split <;> rfl

/-- what the machine does with a line of a kind -/
def kindAction : LineKind → Action
  | .start => .start
  | .stop => .end_
  | .normal => .add

theorem richRx_action (ctx : LoadCtx) (l : RLine) (ho : l.OK ctx) (j : Nat) :
    (richAt j l).action = kindAction (kindOf j l) ∧
    (kindOf j l = .stop ↔ (richRx l).action = .end_) ∧
    (kindOf j l = .start ↔ (richRx l).action ≠ .end_ ∧ (j = 0 ∨ (richRx l).action.isStart = true)) ∧
    ((richRx l).action.isStart = true → (richRx l).action = .start) := by
  have h := lineAction_rich (varsOf l.pieces)
    (fun v hv => (not_reserved _ (rich_vars_ok ctx l ho v hv).name.2.2.2).2.2.1) .add
  have ha : (richRx l).action = lineAction ((varsOf l.pieces).map richInfo) := rfl
  unfold lineAction at ha
  rw [h] at ha
  simp only [Action.isStart, Bool.false_eq_true, if_false] at ha
  unfold richAt kindOf
  by_cases h1 : (varsOf l.pieces).any (fun v => v.mark = some true) = true
  · simp only [h1, if_true] at ha ⊢
    simp [kindAction, ha, Action.isStart]
  · simp only [h1, Bool.false_eq_true, if_false] at ha ⊢
    cases hl : (varsOf l.pieces).getLast? with
    | none => rw [List.getLast?_eq_none_iff] at hl; exact absurd hl ho.some
    | some v =>
      rw [hl] at ha
      simp only [Option.bind_some] at ha ⊢
      have hm : v.mark ≠ some true := by
        intro e
        apply h1
        rw [List.any_eq_true]
        exact ⟨v, List.mem_of_getLast? hl, by simp [e]⟩
      rcases mark_cases v with hvm | hvm | hvm
      · simp only [hvm] at ha ⊢
        by_cases hj : j = 0 <;> simp [hj, kindAction, ha, markAction, Action.isStart]
      · exact absurd hvm hm
      · simp only [hvm] at ha ⊢
        simp [kindAction, ha, markAction, Action.isStart]

/-- the lines of a kind, with their numbers -/
def sel (k : LineKind) : Nat → List RLine → List (Nat × RLine)
  | _, [] => []
  | i, l :: ls => if kindOf i l = k then (i, l) :: sel k (i + 1) ls else sel k (i + 1) ls

theorem mem_sel (k : LineKind) (tpl : List RLine) (i j : Nat) (l : RLine) :
    (j, l) ∈ sel k i tpl ↔ i ≤ j ∧ tpl[j - i]? = some l ∧ kindOf j l = k := by
  induction tpl generalizing i with
  | nil => simp [sel]
  | cons a tpl ih =>
    have key : (j, l) ∈ sel k (i + 1) tpl ↔ (i < j ∧ (a :: tpl)[j - i]? = some l ∧ kindOf j l = k) := by
      rw [ih]
      constructor
      · rintro ⟨h1, h2, h3⟩
        refine ⟨by omega, ?_, h3⟩
        rw [show j - i = (j - (i + 1)) + 1 by omega, List.getElem?_cons_succ]; exact h2
      · rintro ⟨h1, h2, h3⟩
        rw [show j - i = (j - (i + 1)) + 1 by omega, List.getElem?_cons_succ] at h2
        exact ⟨by omega, h2, h3⟩
    simp only [sel]
    by_cases h : kindOf i a = k
    · rw [if_pos h, List.mem_cons, key]
      constructor
      · rintro (e | ⟨h1, h2⟩)
        · cases e; exact ⟨Nat.le_refl _, by simp, h⟩
        · exact ⟨by omega, h2⟩
      · rintro ⟨h1, h2, h3⟩
        rcases Nat.lt_or_eq_of_le h1 with h1 | rfl
        · exact Or.inr ⟨h1, h2, h3⟩
        · simp only [Nat.sub_self, List.getElem?_cons_zero, Option.some.injEq] at h2
          subst h2; exact Or.inl rfl
    · rw [if_neg h, key]
      constructor
      · rintro ⟨h1, h2⟩; exact ⟨by omega, h2⟩
      · rintro ⟨h1, h2, h3⟩
        rcases Nat.lt_or_eq_of_le h1 with h1 | rfl
        · exact ⟨h1, h2, h3⟩
        · simp only [Nat.sub_self, List.getElem?_cons_zero, Option.some.injEq] at h2
          subst h2; exact absurd h3 h

/-- the entries of a kind -/
def selRx (k : LineKind) (i : Nat) (tpl : List RLine) : List LineRx := (sel k i tpl).map (fun jl => richAt jl.1 jl.2)

theorem classify_rich (ctx : LoadCtx) (tpl : List RLine) (ho : ∀ l ∈ tpl, l.OK ctx) (i : Nat) (g : GroupLines) :
    classify false false i (tpl.map richRx) g =
      ⟨g.start ++ selRx .start i tpl, g.normal ++ selRx .normal i tpl, g.end_ ++ selRx .stop i tpl⟩ := by
  induction tpl generalizing i g with
  | nil => simp [classify, selRx, sel]
  | cons l tpl ih =>
    have ih' := ih (fun l' hl => ho l' (by simp [hl]))
    obtain ⟨h1, h2, h3, h4⟩ := richRx_action ctx l (ho l (by simp)) i
    rw [List.map_cons, classify, ih']
    cases hk : kindOf i l with
    | stop =>
      have e1 := h2.1 hk
      have e2 : richAt i l = richRx l := by simp [richAt, hk]
      simp [e1, selRx, sel, hk, e2]
    | start =>
      obtain ⟨e1, e2⟩ := h3.1 hk
      have e3 : (if (richRx l).action.isStart = true then richRx l else { richRx l with action := .start }) = richAt i l := by
        by_cases h : (richRx l).action.isStart = true
        · rw [if_pos h]
          have ha : (richRx l).action = .start := h4 h
          unfold richAt
          rw [if_pos hk, ← ha]
        · rw [if_neg h]; unfold richAt; rw [if_pos hk]
      by_cases hi : i = 0
      · simp only [e1, if_false, Bool.false_eq_true, hi, decide_true, Bool.true_or, if_true]
        rw [hi] at e3 hk
        rw [e3]
        simp [selRx, sel, hk]
      · have e4 : (richRx l).action.isStart = true := by
          rcases e2 with e2 | e2
          · exact absurd e2 hi
          · exact e2
        rw [if_pos e4] at e3
        simp only [e1, if_false, Bool.false_eq_true, hi, decide_false, Bool.or_self, e4, if_true]
        rw [e3]
        simp [selRx, sel, hk]
    | normal =>
      have e1 : (richRx l).action ≠ .end_ := by intro e; have := h2.2 e; rw [hk] at this; cases this
      have e2 : ¬ (i = 0 ∨ (richRx l).action.isStart = true) := by intro e; have := h3.2 ⟨e1, e⟩; rw [hk] at this; cases this
      have e3 : richAt i l = richRx l := by simp [richAt, hk]
      simp only [not_or, Bool.not_eq_true] at e2
      simp [e1, e2.1, e2.2, selRx, sel, hk, e3]

/-! ## The group -/

theorem lineVars_get (vs : List RVar) (hn : (vs.map (·.name)).Nodup) (v : RVar) (hv : v ∈ vs) (d : Dict Str (Str × List FnCall)) :
    Dict.get? ((vs.map richInfo).foldl (fun d v => if v.hidden then d
      else Dict.set (Dict.set d v.name (v.orig, v.funcs)) v.orig (v.orig, v.funcs)) d) v.name = some (v.name, v.checks) := by
  have other : ∀ (ws : List RVar) (d : Dict Str (Str × List FnCall)) (n : Str), n ∉ ws.map (·.name) →
      Dict.get? ((ws.map richInfo).foldl (fun d v => if v.hidden then d
        else Dict.set (Dict.set d v.name (v.orig, v.funcs)) v.orig (v.orig, v.funcs)) d) n = Dict.get? d n := by
    intro ws
    induction ws with
    | nil => intro d n _; rfl
    | cons w ws ih =>
      intro d n h
      simp only [List.map_cons, List.mem_cons, not_or] at h
      rw [List.map_cons, List.foldl_cons, ih _ n h.2]
      have hw : (richInfo w).hidden = false := rfl
      have h1 : (richInfo w).name = w.name := rfl
      have h2 : (richInfo w).orig = w.name := rfl
      simp only [hw, h1, h2, Bool.false_eq_true, if_false, Dict.get?_set, beq_iff_eq, Ne.symm h.1]
  induction vs generalizing d with
  | nil => cases hv
  | cons w ws ih =>
    simp only [List.map_cons, List.nodup_cons] at hn
    rw [List.map_cons, List.foldl_cons]
    rcases List.mem_cons.1 hv with rfl | hv
    · rw [other _ _ _ hn.1]
      have hw : (richInfo v).hidden = false := rfl
      have h1 : (richInfo v).name = v.name := rfl
      have h2 : (richInfo v).orig = v.name := rfl
      have h3 : (richInfo v).funcs = v.checks := rfl
      simp only [hw, h1, h2, h3, Bool.false_eq_true, if_false]
      exact Dict.get?_set_self _ _ _
    · exact ih hn.2 hv _

theorem richRx_vars (ctx : LoadCtx) (l : RLine) (ho : l.OK ctx) (v : RVar) (hv : v ∈ varsOf l.pieces) :
    Dict.get? (richRx l).vars v.name = some (v.name, v.checks) := lineVars_get _ ho.names v hv []

theorem lineVars_keys (vs : List RVar) (n : Str) (d : Dict Str (Str × List FnCall)) :
    n ∈ Dict.keys ((vs.map richInfo).foldl (fun d v => if v.hidden then d
      else Dict.set (Dict.set d v.name (v.orig, v.funcs)) v.orig (v.orig, v.funcs)) d) ↔ n ∈ Dict.keys d ∨ ∃ v ∈ vs, v.name = n := by
  induction vs generalizing d with
  | nil => simp
  | cons w ws ih =>
    rw [List.map_cons, List.foldl_cons, ih]
    have hw : (richInfo w).hidden = false := rfl
    have h1 : (richInfo w).name = w.name := rfl
    have h2 : (richInfo w).orig = w.name := rfl
    have key : ∀ (d : Dict Str (Str × List FnCall)) k x, n ∈ Dict.keys (Dict.set d k x) ↔ n ∈ Dict.keys d ∨ k = n := by
      intro d k x
      rw [← Dict.has_iff, ← Dict.has_iff]
      simp only [Dict.has, Dict.get?_set]
      by_cases e : k = n <;> simp [e]
    simp only [hw, h1, h2, Bool.false_eq_true, if_false, key, List.mem_cons, exists_eq_or_imp]
    constructor
    · rintro (((h | h) | h) | h)
      · exact Or.inl h
      · exact Or.inr (Or.inl h)
      · exact Or.inr (Or.inl h)
      · exact Or.inr (Or.inr h)
    · rintro (h | h | h)
      · exact Or.inl (Or.inl (Or.inl h))
      · exact Or.inl (Or.inr h)
      · exact Or.inr h

theorem startDefault_rich (tpl : List RLine) : startDefault (selRx .start 0 tpl) (richDefaults tpl) = true ↔ StartDefault tpl := by
  unfold startDefault StartDefault
  simp only [List.any_eq_true, selRx, List.mem_map]
  constructor
  · rintro ⟨_, ⟨⟨j, l⟩, hm, rfl⟩, n, hn, hd⟩
    rw [mem_sel] at hm
    rw [richAt_vars] at hn
    rcases (lineVars_keys (varsOf l.pieces) n []).1 hn with h | ⟨v, hv, rfl⟩
    · cases h
    · exact ⟨j, l, by simpa using hm.2.1, hm.2.2, v, hv, (Dict.has_iff _ _).1 hd⟩
  · rintro ⟨j, l, h1, h2, v, hv, hd⟩
    refine ⟨richAt j l, ⟨(j, l), (mem_sel _ _ _ _ _).2 ⟨Nat.zero_le _, by simpa using h1, h2⟩, rfl⟩, v.name, ?_, (Dict.has_iff _ _).2 hd⟩
    rw [richAt_vars]
    exact (lineVars_keys (varsOf l.pieces) v.name []).2 (Or.inr ⟨v, hv, rfl⟩)

/-- the loaded group -/
def richGInfo (name : Str) (fs : List FnCall) (tpl : List RLine) : GInfo := ⟨0, (name, 0), none, splitC '.' name, fs, richDefaults tpl⟩

/-- the loaded group -/
def richGrp (name : Str) (fs : List FnCall) (tpl : List RLine) : Grp :=
  .mk (richGInfo name fs tpl) (selRx .start 0 tpl) (selRx .normal 0 tpl) (selRx .stop 0 tpl)
    (startDefault (selRx .start 0 tpl) (richDefaults tpl)) []

/-- a group with a text as default, whose lines and defaults are those of another template -/
theorem loadGroups_dflt (ctx : LoadCtx) (hp : ctx.patterns = getPattern) (hre : ctx.re = ReText.compile) (name : Str) (hne : name ≠ [])
    (attrs : List (Str × Str)) (fs : List FnCall) (x : Str)
    (hat : groupAttrs ctx c!"." true 0 ((c!"name", name) :: attrs) ⟨[], [], none, .str c!"_Not_Given_", false, [], [], []⟩ =
      .ok ⟨splitC '.' name, name, some (name, 0), .str x, false, [], [], fs⟩) (tpl tpl' : List RLine) (ho : ∀ l ∈ tpl, l.OK ctx)
    (ho' : ∀ l ∈ tpl', l.OK ctx) (hrx : tpl.map richRx = tpl'.map richRx)
    (hdf : tpl.foldl (fun d l => lineDefaultsD (.str x) l d) [] = richDefaults tpl') (tail : Option Str) :
    loadGroups ctx c!"." 0 0 [.mk c!"group" ((c!"name", name) :: attrs) (some ('\n' :: (tpl.map (fun l => l.source ++ c!"\n")).flatten)) [] tail] =
      .ok [⟨0, name, [], richGrp name fs tpl'⟩] := by
  have hskip : lineSkipped [] = true := by decide
  have hanon : anonymousPath true 0 ⟨splitC '.' name, name, some (name, 0), .str x, false, [], [], fs⟩ =
      ⟨splitC '.' name, name, some (name, 0), .str x, false, [], [], fs⟩ := by
    simp [anonymousPath, hne]
  have hreg : getRegexes ctx ⟨splitC '.' name, name, some (name, 0), .str x, false, [], [], fs⟩ false
      (some ('\n' :: (tpl.map (fun l => l.source ++ c!"\n")).flatten)) ⟨⟨[], [], []⟩, [], false⟩ =
      .ok ⟨⟨selRx .start 0 tpl', selRx .normal 0 tpl', selRx .stop 0 tpl'⟩, richDefaults tpl',
        startDefault (selRx .start 0 tpl') (richDefaults tpl')⟩ := by
    have hc := classify_rich ctx tpl' ho' 0 ⟨[], [], []⟩
    simp only [getRegexes, splitlines_rich ctx tpl ho]
    rw [show loadLines ctx (.str x) ([] :: tpl.map RLine.source) [] =
      loadLines ctx (.str x) (tpl.map RLine.source) [] from by simp only [loadLines, hskip, if_true],
      loadLines_richD ctx hp hre _ tpl ho, hrx, hdf]
    simp only [ok_bind, hc, List.nil_append, pure_ok, Bool.false_or]
  simp only [loadGroups, loadGroup, hat, ok_bind, hanon, hreg, loadChildren, pure_ok]
  rfl

theorem loadGroups_fns (ctx : LoadCtx) (hp : ctx.patterns = getPattern) (hre : ctx.re = ReText.compile) (name : Str) (hne : name ≠ [])
    (attrs : List (Str × Str)) (fs : List FnCall)
    (hat : groupAttrs ctx c!"." true 0 ((c!"name", name) :: attrs) ⟨[], [], none, .str c!"_Not_Given_", false, [], [], []⟩ =
      .ok ⟨splitC '.' name, name, some (name, 0), .str c!"_Not_Given_", false, [], [], fs⟩) (tpl : List RLine) (ho : ∀ l ∈ tpl, l.OK ctx) (tail : Option Str) :
    loadGroups ctx c!"." 0 0 [.mk c!"group" ((c!"name", name) :: attrs) (some ('\n' :: (tpl.map (fun l => l.source ++ c!"\n")).flatten)) [] tail] =
      .ok [⟨0, name, [], richGrp name fs tpl⟩] := by
  have hskip : lineSkipped [] = true := by decide
  have hanon : anonymousPath true 0 ⟨splitC '.' name, name, some (name, 0), .str c!"_Not_Given_", false, [], [], fs⟩ =
      ⟨splitC '.' name, name, some (name, 0), .str c!"_Not_Given_", false, [], [], fs⟩ := by
    simp [anonymousPath, hne]
  have hreg : getRegexes ctx ⟨splitC '.' name, name, some (name, 0), .str c!"_Not_Given_", false, [], [], fs⟩ false
      (some ('\n' :: (tpl.map (fun l => l.source ++ c!"\n")).flatten)) ⟨⟨[], [], []⟩, [], false⟩ =
      .ok ⟨⟨selRx .start 0 tpl, selRx .normal 0 tpl, selRx .stop 0 tpl⟩, richDefaults tpl,
        startDefault (selRx .start 0 tpl) (richDefaults tpl)⟩ := by
    have hc := classify_rich ctx tpl ho 0 ⟨[], [], []⟩
    simp only [getRegexes, splitlines_rich ctx tpl ho]
    rw [show loadLines ctx (.str c!"_Not_Given_") ([] :: tpl.map RLine.source) [] =
      loadLines ctx (.str c!"_Not_Given_") (tpl.map RLine.source) [] from by simp only [loadLines, hskip, if_true],
      loadLines_rich ctx hp hre tpl ho]
    simp only [ok_bind, hc, List.nil_append, pure_ok, Bool.false_or, foldl_richDefaults]
    rfl
  simp only [loadGroups, loadGroup, hat, ok_bind, hanon, hreg, loadChildren, pure_ok]
  rfl

theorem loadGroups_rich (ctx : LoadCtx) (hp : ctx.patterns = getPattern) (hre : ctx.re = ReText.compile) (name : Str) (hne : name ≠ [])
    (hs : ¬ c!"/" <+: name) (tpl : List RLine) (ho : ∀ l ∈ tpl, l.OK ctx) (tail : Option Str) :
    loadGroups ctx c!"." 0 0 [richXml name tpl tail] = .ok [⟨0, name, [], richGrp name [] tpl⟩] :=
  loadGroups_fns ctx hp hre name hne [] [] (groupAttrs_dotted ctx name hs) tpl ho tail

end TTP
