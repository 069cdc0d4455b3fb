import Verif.Proofs.Whole
import Verif.Proofs.RegexNames
/-! # Lemmas: loading of a group with plain lines -/

namespace TTP
open Py Spec Re

/-- the entry of a plain line -/
def tplRx (l : TplLine) : LineRx :=
  ⟨TplRe l, lineVars (elemVars (itemEls l.items)), lineAction (elemVars (itemEls l.items)), (elemVars (itemEls l.items)).any (·.isLine)⟩

/-- variables as the loader sees them -/
def loadedEls : List (Str × Tok) → List (Elem VarDef)
  | [] => []
  | (b, .word w) :: ts => b.map .ch ++ (w.map .ch ++ loadedEls ts)
  | (b, .var p n q) :: ts => b.map .ch ++ (p.map .ch ++ (.var ⟨n, none, []⟩ :: (q.map .ch ++ loadedEls ts)))

theorem word_space (c : Char) (h : isWord c = true) : isSpace c = false := by
  cases hsp : isSpace c with
  | false => rfl
  | true =>
    simp only [isWord, isAlnum, isAlpha, isDigit, Bool.or_eq_true, Bool.and_eq_true, decide_eq_true_eq, beq_iff_eq] at h
    simp only [isSpace, Bool.or_eq_true, Bool.and_eq_true, decide_eq_true_eq, beq_iff_eq] at hsp
    rcases h with ((h1 | h1) | h1) | h1
    · omega
    · omega
    · omega
    · subst h1
      have : '_'.toNat = 95 := rfl
      omega

theorem getAttributes_name (ctx : LoadCtx) (n : Str) (hne : n ≠ []) (h : ∀ c ∈ n, isWord c = true) :
    getAttributes ctx (' ' :: n ++ [' ']) = .ok [⟨n, [], []⟩] := by
  have := getAttributes_pipe ctx [([' '], ⟨n, none⟩, [' '])] [⟨n, [], []⟩] (by simp) (by
    intro i hi
    simp only [List.mem_singleton] at hi
    subst hi
    refine ⟨by simp; decide, ⟨hne, ?_, by simp⟩, by simp; decide⟩
    intro c hc
    refine ⟨word_space c (h c hc), ?_, ?_⟩
    · rintro rfl; have := h _ hc; revert this; decide
    · rintro rfl; have := h _ hc; revert this; decide) (.cons ⟨rfl, rfl, rfl⟩ .nil)
  simpa [pipeSource, join, AttrText.source] using this

theorem loadVar_name (ctx : LoadCtx) (line n : Str) (d : Dict Key Val) (p q : Str) (h : TokOK (.var p n q)) (hr : n ∉ reserved) :
    loadVar ctx (.str c!"_Not_Given_") line (' ' :: n ++ [' ']) d = .ok (⟨n, none, []⟩, d, false) := by
  obtain ⟨h1, h2, h3, h4, _⟩ := h
  have hk : n ∉ keywords := hr
  have hs : n ∉ skipDefaults := by
    intro hm
    apply h4
    simp only [skipDefaults, List.mem_cons, List.not_mem_nil, or_false] at hm ⊢
    grind
  have hi : n ≠ c!"ignore" := by rintro rfl; exact hs (by decide)
  have hg : groupDefault (.str c!"_Not_Given_") n d = d := by simp [groupDefault]
  unfold loadVar
  simp only [getAttributes_name ctx n h1 h2, ok_bind, sanitize_word n h2 h3, hs, hk, if_false, hg, extractAll, eachAttr,
    List.append_nil, pure_ok, hi]

theorem lineVariables_chars (ctx : LoadCtx) (dflt : Val) (line w : Str) (es : List (Elem Str)) (d d' : Dict Key Val)
    (vs : List (Elem VarDef)) (s : Bool) (h : lineVariables ctx dflt line es d = .ok (vs, d', s)) :
    lineVariables ctx dflt line (w.map .ch ++ es) d = .ok (w.map .ch ++ vs, d', s) := by
  induction w with
  | nil => exact h
  | cons c w ih =>
    simp only [List.map_cons, List.cons_append, lineVariables, ih, ok_bind, pure_ok]

theorem lineVariables_items (ctx : LoadCtx) (line : Str) (ts : List (Str × Tok)) (hts : ∀ i ∈ ts, TokOK i.2)
    (hr : ∀ n ∈ tokNames ts, n ∉ reserved) (d : Dict Key Val) :
    lineVariables ctx (.str c!"_Not_Given_") line (rawEls ts) d = .ok (loadedEls ts, d, false) := by
  induction ts with
  | nil => rfl
  | cons i ts ih =>
    obtain ⟨b, t⟩ := i
    have ht := hts (b, t) (by simp)
    cases t with
    | word w =>
      have ih' := ih (fun i hi => hts i (by simp [hi])) (fun n hn => hr n (by simpa [tokNames] using hn))
      exact lineVariables_chars _ _ _ _ _ _ _ _ _ (lineVariables_chars _ _ _ _ _ _ _ _ _ ih')
    | var p n q =>
      have ih' := ih (fun i hi => hts i (by simp [hi])) (fun m hm => hr m (by simp [tokNames, hm]))
      refine lineVariables_chars _ _ _ _ _ _ _ _ _ (lineVariables_chars _ _ _ _ _ _ _ _ _ ?_)
      have e := lineVariables_chars _ _ _ q _ _ _ _ _ ih'
      simp only [lineVariables, loadVar_name ctx line n d p q ht (hr n (by simp [tokNames])), ok_bind, e, pure_ok, Bool.or_false]

/-- attach the variables -/
def tplInfoEl : Elem VarDef → Elem VarInfo
  | .ch c => .ch c
  | .var d => .var (varInfo d)

theorem loadedEls_itemEls (ts : List (Str × Tok)) (hts : ∀ i ∈ ts, TokOK i.2) : (loadedEls ts).map tplInfoEl = itemEls ts := by
  induction ts with
  | nil => rfl
  | cons i ts ih =>
    obtain ⟨b, t⟩ := i
    have ht := hts (b, t) (by simp)
    have ih' := ih (fun i hi => hts i (by simp [hi]))
    cases t with
    | word w => simp [loadedEls, itemEls, tokEls, chs, ih', tplInfoEl, Function.comp_def]
    | var p n q =>
      have h1 := varInfo_plain p n q ht
      have hv : tplInfoEl (.var ⟨n, none, []⟩) = .var (plainVar n) := by simp only [tplInfoEl, h1]
      simp only [loadedEls, List.map_append, List.map_cons, hv, ih']
      simp [itemEls, tokEls, chs, tplInfoEl, Function.comp_def]

theorem tpl_all (l : TplLine) (ho : l.OK) : ∀ i ∈ l.items, (∀ c ∈ i.1, Blank c) ∧ TokOK i.2 := by
  have h := ho.items
  revert h
  cases l.items with
  | nil => intro h; exact absurd h id
  | cons i ts =>
    obtain ⟨b, t⟩ := i
    rintro ⟨rfl, ht, hts⟩ j hj
    rcases List.mem_cons.1 hj with rfl | hj
    · exact ⟨by simp, ht⟩
    · exact ⟨(hts j hj).1.2, (hts j hj).2⟩

theorem tpl_rstrip (l : TplLine) (ho : l.OK) : rstrip l.source = l.indent ++ Spec.source l.items := by
  have hne : l.items ≠ [] := by intro e; have := ho.items; rw [e] at this; exact this
  obtain ⟨a, c, e, hc⟩ := source_last l.items hne (fun i hi => (tpl_all l ho i hi).2)
  have := rstrip_append (l.indent ++ a) c l.trail hc (fun d hd => blank_space d (ho.trail d hd))
  unfold TplLine.source
  rw [e]; simpa using this

theorem tpl_first (l : TplLine) (ho : l.OK) : ∃ d r, Spec.source l.items = d :: r ∧ isSpace d = false := by
  have h := ho.items
  revert h
  cases l.items with
  | nil => intro h; exact absurd h id
  | cons i ts =>
    obtain ⟨b, t⟩ := i
    rintro ⟨rfl, ht, hts⟩
    obtain ⟨d, r, ed, hd⟩ := tok_first t ht
    exact ⟨d, r ++ Spec.source ts, by simp [Spec.source, ed], hd⟩

theorem tpl_lstrip (l : TplLine) (ho : l.OK) (x : Str) : lstrip (l.indent ++ Spec.source l.items ++ x) = Spec.source l.items ++ x := by
  obtain ⟨d, r, ed, hd⟩ := tpl_first l ho
  simp only [lstrip, List.append_assoc]
  rw [dropWhile_all isSpace _ _ (fun c hc => blank_space c (ho.indent c hc)), ed, List.cons_append,
    List.dropWhile_cons_of_neg (by simp [hd])]

theorem rawEls_vars (ts : List (Str × Tok)) (hts : ∀ i ∈ ts, TokOK i.2) (b : Str) (hb : b ∈ elemVars (rawEls ts)) :
    ∃ n p q, n ∈ tokNames ts ∧ TokOK (.var p n q) ∧ b = ' ' :: n ++ [' '] := by
  have hch : ∀ (w : Str) (es : List (Elem Str)), elemVars (w.map .ch ++ es) = elemVars es := by
    intro w es
    induction w with
    | nil => rfl
    | cons c w ih => simpa [elemVars] using ih
  induction ts with
  | nil => cases hb
  | cons i ts ih =>
    obtain ⟨x, t⟩ := i
    have ht := hts (x, t) (by simp)
    cases t with
    | word w =>
      simp only [rawEls, hch] at hb
      obtain ⟨n, p, q, h1, h2⟩ := ih (fun i hi => hts i (by simp [hi])) hb
      exact ⟨n, p, q, by simpa [tokNames] using h1, h2⟩
    | var p n q =>
      simp only [rawEls, hch, elemVars, List.mem_cons] at hb
      rcases hb with rfl | hb
      · exact ⟨n, p, q, by simp [tokNames], ht, rfl⟩
      · obtain ⟨n', p', q', h1, h2⟩ := ih (fun i hi => hts i (by simp [hi])) hb
        exact ⟨n', p', q', by simp [tokNames, h1], h2⟩

/-! ## The variables of a plain line -/

theorem elemVars_items (ts : List (Str × Tok)) : elemVars (itemEls ts) = (tokNames ts).map plainVar := by
  induction ts with
  | nil => rfl
  | cons i ts ih =>
    obtain ⟨b, t⟩ := i
    have hc : ∀ w, elemVars (chs w) = [] := fun w => elemVars_chars w
    cases t with
    | word w => simp [itemEls, tokEls, elemVars_append, hc, tokNames, ih]
    | var p n q => simp [itemEls, tokEls, elemVars_append, hc, tokNames, ih, elemVars]

theorem names_tpl (l : TplLine) : ReText.names (TplRe l) = tokNames l.items := by
  unfold TplRe
  rw [names_line, cutElems_items _ _ (itemEls_noCut l.items), elemVars_items]
  induction tokNames l.items with
  | nil => rfl
  | cons n ns ih => rw [List.map_cons, List.flatMap_cons, ih]; rfl

theorem compiled_ok (rx : LineRx) (h : (ReText.names rx.re).Nodup) : compiled rx = .ok rx := by
  unfold compiled; rw [if_pos h]; rfl

/-- a plain line is loaded as it is meant -/
theorem loadLine_tpl (ctx : LoadCtx) (l : TplLine) (ho : l.OK) (d : Dict Key Val) :
    loadLine ctx (.str c!"_Not_Given_") l.source d = .ok (some (tplRx l), d) := by
  have e1 := tpl_rstrip l ho
  have e2 := tpl_lstrip l ho []
  simp only [List.append_nil] at e2
  have e3 : Py.contains (l.indent ++ Spec.source l.items) c!"_exact_" = false := by
    cases h : Py.contains (l.indent ++ Spec.source l.items) c!"_exact_" with
    | false => rfl
    | true => exact absurd ((contains_iff _ _).1 h) ho.exact
  have e4 : Py.contains (l.indent ++ Spec.source l.items) c!"_exact_space_" = false := by
    cases h : Py.contains (l.indent ++ Spec.source l.items) c!"_exact_space_" with
    | false => rfl
    | true =>
      have h2 := (contains_iff _ _).1 h
      exact absurd (List.IsInfix.trans ⟨[], c!"space_", rfl⟩ h2) ho.exact
  have e5 : elems (Spec.source l.items) = rawEls l.items := elemsAux_items l.items (tpl_all l ho) _ (Nat.le_refl _)
  have e6 : ∀ (f : Elem VarDef → Elem VarInfo), (∀ x, f x = tplInfoEl x) → (loadedEls l.items).map f = itemEls l.items := by
    intro f hf
    rw [← loadedEls_itemEls l.items (fun i hi => (tpl_all l ho i hi).2)]
    exact List.map_congr_left (fun x _ => hf x)
  have e7 : headersVar ctx (rawEls l.items) = none := by
    apply headersVar_none
    intro b hb f fs hf
    obtain ⟨n, p, q, hn, htk, rfl⟩ := rawEls_vars l.items (fun i hi => (tpl_all l ho i hi).2) b hb
    obtain ⟨h1, h2, h3, _⟩ := htk
    rw [getAttributes_name ctx n h1 h2] at hf
    simp only [Except.ok.injEq, List.cons.injEq] at hf
    rw [← hf.1]
    simp only [sanitize_word n h2 h3]
    intro e
    exact ho.free n hn (by rw [e]; decide)
  unfold loadLine
  simp only [e1, e2, e3, e4, e5, e7, lineVariables_items ctx _ l.items (fun i hi => (tpl_all l ho i hi).2) ho.free, ok_bind,
    Bool.false_eq_true, if_false, pure_ok, compileLine]
  rw [e6 _ (by intro x; cases x <;> rfl)]
  have : List.take ((l.indent ++ Spec.source l.items).length - (Spec.source l.items).length) (l.indent ++ Spec.source l.items) =
      l.indent := by simp
  rw [this]
  show compiled (tplRx l) >>= _ = _
  rw [compiled_ok _ (by show (ReText.names (TplRe l)).Nodup; rw [names_tpl]; exact ho.names)]
  rfl

theorem source_name (ts : List (Str × Tok)) (n : Str) (h : n ∈ tokNames ts) : ∃ a b, Spec.source ts = a ++ c!"{{ " ++ n ++ c!" }}" ++ b := by
  induction ts with
  | nil => cases h
  | cons i ts ih =>
    obtain ⟨b, t⟩ := i
    have hsrc : Spec.source ((b, t) :: ts) = b ++ t.source ++ Spec.source ts := by simp [Spec.source]
    cases t with
    | word w =>
      obtain ⟨x, y, e⟩ := ih h
      exact ⟨b ++ w ++ x, y, by rw [hsrc, e]; simp [Tok.source]⟩
    | var p m q =>
      simp only [tokNames, List.mem_cons] at h
      rcases h with rfl | h
      · exact ⟨b ++ p, q ++ Spec.source ts, by rw [hsrc]; simp [Tok.source]⟩
      · obtain ⟨x, y, e⟩ := ih h
        exact ⟨b ++ (Tok.var p m q).source ++ x, y, by rw [hsrc, e]; simp⟩

theorem tpl_notSkipped (l : TplLine) (ho : l.OK) : lineSkipped l.source = false := by
  obtain ⟨d, r, ed, hd⟩ := tpl_first l ho
  cases hs : lineSkipped l.source with
  | false => rfl
  | true =>
    exfalso
    rw [lineSkipped_iff] at hs
    rcases hs with h | ⟨a, b, e, ha⟩ | h
    · have := h d (by simp [TplLine.source, ed])
      rw [hd] at this; cases this
    · have e1 := tpl_lstrip l ho l.trail
      have e2 : lstrip (a ++ c!"##" ++ b) = c!"##" ++ b := by
        simp only [lstrip, List.append_assoc]
        rw [dropWhile_all isSpace _ _ ha, List.cons_append, List.dropWhile_cons_of_neg (by decide)]
      unfold TplLine.source at e
      rw [e, e2] at e1
      have hlen : 2 ≤ (Spec.source l.items).length := by
        obtain ⟨n, ns, en⟩ := List.exists_cons_of_ne_nil ho.some
        obtain ⟨x, y, e⟩ := source_name l.items n (by simp [en])
        rw [e]; simp; omega
      apply ho.comment
      rw [List.prefix_iff_eq_take]
      have := congrArg (List.take 2) e1
      rw [List.take_append_of_le_length hlen] at this
      simpa using this
    · obtain ⟨n, ns, en⟩ := List.exists_cons_of_ne_nil ho.some
      obtain ⟨x, y, e⟩ := source_name l.items n (by simp [en])
      apply h
      exact ⟨l.indent ++ x, c!" " ++ n ++ c!" ", y ++ l.trail, by simp, by simp [TplLine.source, e]⟩

theorem loadLines_tpl (ctx : LoadCtx) (tpl : List TplLine) (ho : ∀ l ∈ tpl, l.OK) (d : Dict Key Val) :
    loadLines ctx (.str c!"_Not_Given_") (tpl.map TplLine.source) d = .ok (tpl.map tplRx, d) := by
  induction tpl with
  | nil => rfl
  | cons l tpl ih =>
    simp only [List.map_cons, loadLines, tpl_notSkipped l (ho l (by simp)), Bool.false_eq_true, if_false,
      loadLine_tpl ctx l (ho l (by simp)), ok_bind, ih (fun l' hl => ho l' (by simp [hl])), pure_ok, Option.toList_some,
      List.singleton_append]

theorem isBreak_space (c : Char) (h : Format.isBreak c = true) : isSpace c = true := by
  simp only [Format.isBreak, Bool.or_eq_true, Bool.and_eq_true, decide_eq_true_eq, beq_iff_eq] at h
  simp only [isSpace, Bool.or_eq_true, Bool.and_eq_true, decide_eq_true_eq, beq_iff_eq]
  omega

theorem blank_noBreak (c : Char) (h : Blank c) : Format.isBreak c = false := by rcases h with rfl | rfl <;> decide

theorem nspace_noBreak (c : Char) (h : isSpace c = false) : Format.isBreak c = false := by
  cases hb : Format.isBreak c with
  | false => rfl
  | true => rw [isBreak_space c hb] at h; cases h

theorem source_noBreak (ts : List (Str × Tok)) (hts : ∀ i ∈ ts, (∀ c ∈ i.1, Blank c) ∧ TokOK i.2) :
    ∀ c ∈ Spec.source ts, Format.isBreak c = false := by
  intro c hc
  simp only [Spec.source, List.mem_flatten, List.mem_map] at hc
  obtain ⟨_, ⟨⟨b, t⟩, hi, rfl⟩, hc⟩ := hc
  obtain ⟨hb, ht⟩ := hts _ hi
  rcases List.mem_append.1 hc with hc | hc
  · exact blank_noBreak c (hb c hc)
  · cases t with
    | word w => exact nspace_noBreak c (ht.1.2 c hc)
    | var p n q =>
      obtain ⟨_, h2, _, _, h5⟩ := ht
      simp only [Tok.source, List.mem_append, or_assoc] at hc
      rcases hc with hc | hc | hc | hc | hc
      · exact nspace_noBreak c (h5 c (by simp [hc])).1
      · revert hc; simp only [List.mem_cons, List.not_mem_nil, or_false]; rintro (rfl | rfl | rfl) <;> decide
      · exact nspace_noBreak c (word_space c (h2 c hc))
      · revert hc; simp only [List.mem_cons, List.not_mem_nil, or_false]; rintro (rfl | rfl | rfl) <;> decide
      · exact nspace_noBreak c (h5 c (by simp [hc])).1

theorem tpl_noBreak (l : TplLine) (ho : l.OK) : ∀ c ∈ l.source, Format.isBreak c = false := by
  intro c hc
  simp only [TplLine.source, List.mem_append, or_assoc] at hc
  rcases hc with hc | hc | hc
  · exact blank_noBreak c (ho.indent c hc)
  · exact source_noBreak _ (tpl_all l ho) c hc
  · exact blank_noBreak c (ho.trail c hc)

theorem splitlines_tpl (tpl : List TplLine) (ho : ∀ l ∈ tpl, l.OK) :
    Format.splitlines ('\n' :: (tpl.map (fun l => l.source ++ c!"\n")).flatten) = [] :: tpl.map TplLine.source := by
  have key : ∀ tpl : List TplLine, (∀ l ∈ tpl, l.OK) →
      Format.splitlinesAux [] (tpl.map (fun l => l.source ++ c!"\n")).flatten = tpl.map TplLine.source := by
    intro tpl
    induction tpl with
    | nil => intro _; rfl
    | cons l tpl ih =>
      intro ho
      have := Format.splitlinesAux_break [] l.source (tpl.map (fun l => l.source ++ c!"\n")).flatten (tpl_noBreak l (ho l (by simp)))
      simp only [List.map_cons, List.flatten_cons, List.append_assoc, List.cons_append, List.nil_append]
      rw [this, ih (fun l' hl => ho l' (by simp [hl]))]
      rfl
  have := Format.splitlinesAux_break [] [] (tpl.map (fun l => l.source ++ c!"\n")).flatten (by simp)
  simp only [List.nil_append] at this
  unfold Format.splitlines
  rw [this, key tpl ho]

/-! ## Actions of a plain line -/

theorem tplRx_isLine (l : TplLine) : (tplRx l).isLine = false := by
  simp only [tplRx, elemVars_items]
  rw [List.any_eq_false]
  intro v hv
  obtain ⟨n, _, rfl⟩ := List.mem_map.1 hv
  simp [plainVar]

theorem tplRx_action (l : TplLine) : (tplRx l).action = .add := by
  simp only [tplRx, elemVars_items, lineAction]
  have : ∀ ns : List Str, (ns.map plainVar).foldl (fun a v => if a.isStart || v.name == c!"ignore" then a else v.action) Action.add =
      .add := by
    intro ns
    induction ns with
    | nil => rfl
    | cons n ns ih => simpa [plainVar, Action.isStart] using ih
  exact this _

theorem tplRx_vars (l : TplLine) (n : Str) (h : n ∈ tokNames l.items) : Dict.get? (tplRx l).vars n = some (n, []) := by
  simp only [tplRx, elemVars_items, lineVars]
  have : ∀ (ns : List Str) (d : Dict Str (Str × List FnCall)), (n ∈ ns ∨ Dict.get? d n = some (n, [])) →
      Dict.get? ((ns.map plainVar).foldl (fun d v => if v.hidden then d
        else Dict.set (Dict.set d v.name (v.orig, v.funcs)) v.orig (v.orig, v.funcs)) d) n = some (n, []) := by
    intro ns
    induction ns with
    | nil => intro d h; simpa using h
    | cons m ns ih =>
      intro d h
      simp only [List.map_cons, List.foldl_cons, plainVar, Bool.false_eq_true, if_false]
      apply ih
      by_cases e : n = m
      · subst e; right; simp [Dict.get?_set]
      · rcases h with h | h
        · simp only [List.mem_cons, e, false_or] at h; exact Or.inl h
        · right; simp [Dict.get?_set, Ne.symm e, h]
  exact this _ _ (Or.inl h)

/-! ## The group -/

/-- number and line to the entry: the first line is a start -/
def rxAt : Nat → TplLine → LineRx
  | 0, l => { tplRx l with action := .start }
  | _ + 1, l => tplRx l

theorem classify_tpl (ls : List LineRx) (h : ∀ l ∈ ls, l.action = .add) (i : Nat) (g : GroupLines) :
    classify false false (i + 1) ls g = { g with normal := g.normal ++ ls } := by
  induction ls generalizing i g with
  | nil => simp [classify]
  | cons l ls ih =>
    simp only [classify, h l (by simp), Action.isStart]
    have := ih (fun l' hl => h l' (by simp [hl])) (i + 1) { g with normal := g.normal ++ [l] }
    simp only [reduceCtorEq, if_false, Bool.false_eq_true, Nat.add_eq_zero_iff, Nat.one_ne_zero, and_false, decide_false,
      Bool.or_false]
    rw [this]; simp

/-- the loaded group -/
def tplInfo (name : Str) : GInfo := ⟨0, (name, 0), none, [name], [], []⟩

/-- the loaded group -/
def tplGrp (name : Str) (l : TplLine) (tpl : List TplLine) : Grp :=
  .mk (tplInfo name) [rxAt 0 l] (tpl.map tplRx) [] false []

theorem splitC_sub (sep : Char) (s w : Str) (hw : w ∈ splitC sep s) : ∀ c ∈ w, c ∈ s := by
  have aux : ∀ (ws : List Str), w ∈ ws → ∀ c ∈ w, c ∈ join [sep] ws := by
    intro ws
    induction ws with
    | nil => intro h; cases h
    | cons a as ih =>
      intro h c hc
      cases as with
      | nil =>
        simp only [List.mem_singleton] at h
        subst h
        simpa [join] using hc
      | cons b bs =>
        rcases List.mem_cons.1 h with rfl | h
        · simp [join, hc]
        · have := ih h c hc
          simp only [join, List.mem_append]
          exact Or.inr this
  intro c hc
  have := aux _ hw c hc
  rwa [join_splitC] at this

theorem groupAttrs_dotted (ctx : LoadCtx) (name : Str) (hs : ¬ c!"/" <+: name) :
    groupAttrs ctx c!"." true 0 [(c!"name", name)] ⟨[], [], none, .str c!"_Not_Given_", false, [], [], []⟩ =
      .ok ⟨splitC '.' name, name, some (name, 0), .str c!"_Not_Given_", false, [], [], []⟩ := by
  have hpre : startsWith name c!"/" = false := by
    cases h : startsWith name c!"/" with
    | false => rfl
    | true =>
      rw [isPrefixOf_iff'] at h
      obtain ⟨r, e⟩ := h
      exact absurd ⟨r, e.symm⟩ hs
  have hsp : split c!"." name = splitC '.' name := by rw [split_char]
  have l1 : lower c!"name" = c!"name" := by decide
  simp only [groupAttrs, groupAttr, l1, groupPath, hpre, splitPath, hsp]
  simp [pure_ok, ok_bind, join_splitC]

theorem groupAttrs_name (ctx : LoadCtx) (name : Str) (hn : '.' ∉ name) (hs : ¬ c!"/" <+: name) :
    groupAttrs ctx c!"." true 0 [(c!"name", name)] ⟨[], [], none, .str c!"_Not_Given_", false, [], [], []⟩ =
      .ok ⟨[name], name, some (name, 0), .str c!"_Not_Given_", false, [], [], []⟩ := by
  rw [groupAttrs_dotted ctx name hs, splitC_self '.' name hn]

theorem loadGroup_tpl (ctx : LoadCtx) (name : Str) (hne : name ≠ []) (hn : '.' ∉ name) (hs : ¬ c!"/" <+: name) (l : TplLine) (tpl : List TplLine)
    (ho : ∀ l' ∈ l :: tpl, l'.OK) (tail : Option Str) :
    loadGroup ctx c!"." true [] none 0 0 (groupXml name (l :: tpl) tail) = .ok (⟨tplGrp name l tpl, name, [], []⟩, 1) := by
  have hskip : lineSkipped [] = true := by decide
  have hanon : anonymousPath true 0 ⟨[name], name, some (name, 0), .str c!"_Not_Given_", false, [], [], []⟩ =
      ⟨[name], name, some (name, 0), .str c!"_Not_Given_", false, [], [], []⟩ := by
    simp [anonymousPath, hne]
  have hreg : getRegexes ctx ⟨[name], name, some (name, 0), .str c!"_Not_Given_", false, [], [], []⟩ false
      (some ('\n' :: ((l :: tpl).map (fun l => l.source ++ c!"\n")).flatten)) ⟨⟨[], [], []⟩, [], false⟩ =
      .ok ⟨⟨[rxAt 0 l], tpl.map tplRx, []⟩, [], false⟩ := by
    have hc := classify_tpl (tpl.map tplRx) (by
      intro r hr
      obtain ⟨l', _, rfl⟩ := List.mem_map.1 hr
      exact tplRx_action l') 0 ⟨[rxAt 0 l], [], []⟩
    simp only [getRegexes, splitlines_tpl _ ho]
    rw [show loadLines ctx (.str c!"_Not_Given_") ([] :: (l :: tpl).map TplLine.source) [] =
      loadLines ctx (.str c!"_Not_Given_") ((l :: tpl).map TplLine.source) [] from by simp only [loadLines, hskip, if_true],
      loadLines_tpl ctx _ ho]
    simp only [ok_bind, List.map_cons, classify, tplRx_action, Action.isStart, reduceCtorEq, if_false, Bool.false_eq_true,
      decide_true, Bool.true_or, if_true, List.nil_append]
    rw [show ({ re := (tplRx l).re, vars := (tplRx l).vars, action := Action.start, isLine := (tplRx l).isLine } : LineRx) = rxAt 0 l from rfl,
      hc]
    simp [startDefault, Dict.has, Dict.get?, pure_ok]
  simp only [groupXml, loadGroup, groupAttrs_name ctx name hn hs, ok_bind, hanon, hreg, loadChildren, pure_ok]
  rfl

theorem loadGroups_tpl (ctx : LoadCtx) (name : Str) (hne : name ≠ []) (hn : '.' ∉ name) (hs : ¬ c!"/" <+: name) (l : TplLine) (tpl : List TplLine)
    (ho : ∀ l' ∈ l :: tpl, l'.OK) (tail : Option Str) :
    loadGroups ctx c!"." 0 0 [groupXml name (l :: tpl) tail] = .ok [⟨0, name, [], tplGrp name l tpl⟩] := by
  simp only [loadGroups, loadGroup_tpl ctx name hne hn hs l tpl ho tail, ok_bind, pure_ok]

end TTP
