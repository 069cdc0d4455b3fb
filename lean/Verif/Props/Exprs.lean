import Verif.Props.ArgVars
import Verif.Spec.Exprs
/-!
# C164, C165: expressions and chains
-/

set_option synthInstance.maxSize 4000

namespace TTP
open Py Spec




theorem extractAll_exprs (ctx : LoadCtx) (orig line : Str) (n : Nat) (fs : List FnCall) (ts : List Str)
    (ht : All2 (fun f t => ∃ s, ExprAsked f s ∧ ExprFound ctx.vars ctx.patterns s t) fs ts) (hf : ∀ f ∈ fs, IsExpr ctx f) (st : VarSt) :
    (∀ rs, All2 (fun t r => ctx.re t = some r) ts rs → extractAll ctx orig line (n + 1) fs st = .ok { st with attrs := st.attrs ++ rs.map .pattern }) ∧
    ((∃ t ∈ ts, ctx.re t = none) → extractAll ctx orig line (n + 1) fs st = .error .reError) := by
  unfold extractAll
  induction ht generalizing st with
  | nil =>
    refine ⟨fun rs h => ?_, by simp⟩
    cases h
    simp [eachAttr, pure_ok]
  | @cons f t fs ts h1 h2 ih =>
    obtain ⟨s, ha, he⟩ := h1
    have h0 := extract_expr ctx orig line n f (hf f (by simp)) st
    have ih' := fun st => ih (fun g hg => hf g (by simp [hg])) st
    rw [extractRe_found ctx f s t ha he] at h0
    constructor
    · intro rs h
      cases h with
      | @cons _ r _ rs hr hrs =>
        rw [hr] at h0
        simp only [ok_bind, pure_ok] at h0
        simp only [eachAttr, h0, ok_bind, (ih' _).1 rs hrs, List.append_assoc, List.map_cons, List.cons_append, List.nil_append]
    · rintro ⟨x, hx, hn⟩
      cases hr : ctx.re t with
      | none =>
        rw [hr] at h0
        simp only [err_bind] at h0
        simp only [eachAttr, h0, err_bind]
      | some r =>
        rw [hr] at h0
        simp only [ok_bind, pure_ok] at h0
        simp only [eachAttr, h0, ok_bind]
        rcases List.mem_cons.1 hx with rfl | hx
        · rw [hn] at hr; cases hr
        · exact (ih' _).2 ⟨x, hx, hn⟩








theorem loadVar_named (ctx : LoadCtx) (v : RVar)
    (hn : v.name ≠ [] ∧ (∀ c ∈ v.name, isWord c = true) ∧ (∀ c cs, v.name = c :: cs → isDigit c = false) ∧ v.name ∉ reserved)
    (content : Str) (hw : v.Written ctx content) (dflt : Val) (line : Str) (d : Dict Key Val) :
    loadVar ctx dflt line content d = (do
      let st ← extractAll ctx v.name line chainDepth v.opts ⟨[], groupDefault dflt v.name d, false⟩
      pure (⟨v.name, none, st.attrs⟩, st.defaults, st.skip)) := by
  have hattrs := getAttributes_written ctx v hn content hw
  obtain ⟨h1, h2, h3, h4⟩ := hn
  obtain ⟨r0, rs, r1, _⟩ := not_reserved _ h4
  unfold loadVar
  simp only [hattrs, ok_bind, sanitize_word v.name h2 h3, rs, r0, if_false, List.nil_append, r1, pure_ok]

end TTP

namespace Props
open Py Spec TTP

/-- C164. The expressions of a variable: `re(text)`, or a function that is the name of a pattern. What is asked for is the first argument, without
arguments the name; it stands for the value of the template variable of that name if that is a text and not empty, otherwise for the pattern of that
name, otherwise for itself. The variable has all these expressions, in order. If one of the texts is no regular expression, loading raises
`re.error`. -/
theorem C164_expressions (ctx : LoadCtx) (v : RVar)
    (hn : v.name ≠ [] ∧ (∀ c ∈ v.name, isWord c = true) ∧ (∀ c cs, v.name = c :: cs → isDigit c = false) ∧ v.name ∉ reserved)
    (hf : ∀ f ∈ v.opts, f.name = c!"re" ∨ (f.name ∉ reserved ∧ ∃ p, ctx.patterns f.name = some p)) (ts : List Str)
    (ht : All2 (fun f t => ∃ s, ExprAsked f s ∧ ExprFound ctx.vars ctx.patterns s t) v.opts ts)
    (line content : Str) (hw : v.Written ctx content) (d : Dict Key Val) :
    (∀ rs, All2 (fun t r => ctx.re t = some r) ts rs → loadVar ctx (.str c!"_Not_Given_") line content d =
      .ok (⟨v.name, none, rs.map .pattern⟩, d, false)) ∧
    ((∃ t ∈ ts, ctx.re t = none) → loadVar ctx (.str c!"_Not_Given_") line content d = .error .reError) := by
  have hg : groupDefault (.str c!"_Not_Given_") v.name d = d := by simp [groupDefault]
  have hall := extractAll_exprs ctx v.name line 999 v.opts ts ht hf ⟨[], d, false⟩
  rw [loadVar_named ctx v hn content hw, hg, show chainDepth = 999 + 1 from rfl]
  constructor
  · intro rs h
    rw [hall.1 rs h]
    simp only [ok_bind, List.nil_append, pure_ok]
  · intro h
    rw [hall.2 h, err_bind]

/-- C165. `chain("name")` of a template variable that is a text of functions with pipes between them, or a list of such texts, does what these functions do when
they are written in its place: the two variables load in the same way, whatever the other functions are. -/
theorem C165_chain (ctx : LoadCtx) (name s : Str) (pre post fs : List FnCall) (as : List Val) (kw : Dict Str Val)
    (hn : name ≠ [] ∧ (∀ c ∈ name, isWord c = true) ∧ (∀ c cs, name = c :: cs → isDigit c = false) ∧ name ∉ reserved)
    (v : Val) (hv : Dict.get? ctx.vars s = some v) (hc : ChainOf ctx v fs) (hf : ∀ f ∈ fs, f.name ≠ c!"chain")
    (content content' : Str) (hw : RVar.Written ctx ⟨name, pre ++ ⟨c!"chain", .str s :: as, kw⟩ :: post⟩ content)
    (hw' : RVar.Written ctx ⟨name, pre ++ fs ++ post⟩ content') (dflt : Val) (line : Str) (d : Dict Key Val) :
    loadVar ctx dflt line content d = loadVar ctx dflt line content' d := by
  rw [loadVar_named ctx ⟨name, _⟩ hn content hw, loadVar_named ctx ⟨name, _⟩ hn content' hw']
  unfold extractAll
  rw [show chainDepth = 998 + 2 from rfl]
  simp only [eachAttr_append, eachAttr, List.append_assoc, extract_chain ctx name line 998 s as kw v fs hv hc hf]

/-- C165. `chain` of a name that is no template variable does nothing. -/
theorem C165_unknown (ctx : LoadCtx) (name s : Str) (pre post : List FnCall) (as : List Val) (kw : Dict Str Val)
    (hn : name ≠ [] ∧ (∀ c ∈ name, isWord c = true) ∧ (∀ c cs, name = c :: cs → isDigit c = false) ∧ name ∉ reserved)
    (hv : s ∉ Dict.keys ctx.vars)
    (content content' : Str) (hw : RVar.Written ctx ⟨name, pre ++ ⟨c!"chain", .str s :: as, kw⟩ :: post⟩ content)
    (hw' : RVar.Written ctx ⟨name, pre ++ post⟩ content') (dflt : Val) (line : Str) (d : Dict Key Val) :
    loadVar ctx dflt line content d = loadVar ctx dflt line content' d := by
  have hx : ∀ st, extract ctx name line (998 + 2) ⟨c!"chain", .str s :: as, kw⟩ st = .ok st := by
    intro st
    rw [extract]
    show (match Dict.get? ctx.vars s with
      | none => pure st
      | some .none => pure st
      | some v => do
        let as ← chainAttrs ctx v
        eachAttr (extract ctx name line (998 + 1)) as st) = _
    rw [(Dict.get?_eq_none_iff _ _).2 hv]
    rfl
  rw [loadVar_named ctx ⟨name, _⟩ hn content hw, loadVar_named ctx ⟨name, _⟩ hn content' hw']
  unfold extractAll
  rw [show chainDepth = 998 + 2 from rfl]
  simp only [eachAttr_append, eachAttr, hx, ok_bind]

/-- C165. A chain that begins with itself raises `RecursionError`, a `RuntimeError`. -/
theorem C165_forever (ctx : LoadCtx) (name s : Str) (post fs : List FnCall) (as as' : List Val) (kw kw' : Dict Str Val)
    (hn : name ≠ [] ∧ (∀ c ∈ name, isWord c = true) ∧ (∀ c cs, name = c :: cs → isDigit c = false) ∧ name ∉ reserved)
    (v : Val) (hv : Dict.get? ctx.vars s = some v) (hc : ChainOf ctx v (⟨c!"chain", .str s :: as', kw'⟩ :: fs))
    (content : Str) (hw : RVar.Written ctx ⟨name, ⟨c!"chain", .str s :: as, kw⟩ :: post⟩ content) (dflt : Val) (line : Str) (d : Dict Key Val) :
    loadVar ctx dflt line content d = .error .runtimeError := by
  have hnone : v ≠ .none := by
    rintro rfl
    rcases hc with ⟨_, e, _⟩ | ⟨_, _, e, _⟩ <;> cases e
  have h := chainAttrs_of ctx v _ hc
  have hx : ∀ n as kw st, extract ctx name line n ⟨c!"chain", .str s :: as, kw⟩ st = .error .runtimeError := by
    intro n
    induction n with
    | zero => intro as kw st; rfl
    | succ n ih =>
      intro as kw st
      rw [extract]
      show (match Dict.get? ctx.vars s with
        | none => pure st
        | some .none => pure st
        | some v => do
          let as ← chainAttrs ctx v
          eachAttr (extract ctx name line n) as st) = _
      rw [hv]
      cases v <;> first | exact absurd rfl hnone | (simp only [h, ok_bind, eachAttr, ih, err_bind])
  rw [loadVar_named ctx ⟨name, _⟩ hn content hw]
  simp only [extractAll, eachAttr, hx, err_bind]

/-- C82. A line that is only `{{ name | set(value) }}` declares the value as default of the name and is no line of the group. -/
theorem C82_set_alone (ctx : LoadCtx) (name : Str) (a : Val) (as : List Val) (kw : Dict Str Val)
    (hn : name ≠ [] ∧ (∀ c ∈ name, isWord c = true) ∧ (∀ c cs, name = c :: cs → isDigit c = false) ∧ name ∉ reserved)
    (content : Str) (hw : RVar.Written ctx ⟨name, [⟨c!"set", a :: as, kw⟩]⟩ content) (hb : '}' ∉ content)
    (indent trail : Str) (hi : ∀ c ∈ indent ++ trail, isSpace c = true) (d : Dict Key Val) :
    loadLine ctx (.str c!"_Not_Given_") (indent ++ c!"{{" ++ content ++ c!"}}" ++ trail) d = .ok (none, Dict.set d (.s name) a) := by
  have hattrs := getAttributes_written ctx ⟨name, _⟩ hn content hw
  have hne : content ≠ [] := by
    rintro rfl
    obtain ⟨items, b, b', e, _⟩ := hw
    have := congrArg List.length e
    obtain ⟨c, n, rfl⟩ := List.exists_cons_of_ne_nil hn.1
    cases items <;> simp [pipeSource, AttrText.source, join] at this
  let l : TLine := ⟨indent, [.var content], trail⟩
  have hs : indent ++ c!"{{" ++ content ++ c!"}}" ++ trail = l.source := by
    simp [l, TLine.source, Piece.source]
  have ho : l.OK := by
    refine ⟨fun c hc => hi c (by simp [show l.indent = indent from rfl] at hc; simp [hc]), fun c hc => hi c (by simp [show l.trail = trail from rfl] at hc; simp [hc]), ?_, ?_, ?_, ?_, ?_, ?_⟩
    · intro t ht; simp [l] at ht
    · intro b hb'
      simp only [l, List.mem_singleton, Piece.var.injEq] at hb'
      subst hb'
      exact ⟨hne, hb⟩
    · intro e; simp [l, TLine.contents] at e
    · exact ⟨'{', '{' :: (content ++ c!"}}"), by simp [l, Piece.source], by decide⟩
    · exact ⟨c!"{{" ++ content ++ c!"}", '}', by simp [l, Piece.source], by decide⟩
    · rintro ⟨r, e⟩; simp [l, Piece.source] at e
  obtain ⟨e1, e2, e3, e4, _⟩ := elems_line l ho
  have hel : pieceEls l.pieces = [.var content] := by simp [l, pieceEls]
  rw [hel] at e3 e4
  have e7 : headersVar ctx (elems (lstrip (rstrip l.source))) = none := by
    apply headersVar_none
    intro b hb f fs hf
    rw [e3] at hb
    simp only [elemVars, List.mem_singleton] at hb
    subst hb
    rw [hattrs] at hf
    simp only [Except.ok.injEq, List.cons.injEq] at hf
    rw [← hf.1]
    simp only [sanitize_word name hn.2.1 hn.2.2.1]
    exact (not_reserved _ hn.2.2.2).2.2.2.2.2.2
  have hpt : ∀ xs : Str, plainText (xs.map .ch ++ [.var content]) = xs := by
    intro xs
    induction xs with
    | nil => rfl
    | cons x xs ih => simp only [List.map_cons, List.cons_append, plainText, ih]
  have hstrip : rstrip indent = [] := by
    unfold rstrip rstripP
    rw [List.reverse_eq_nil_iff, dropWhile_eq_nil]
    intro c hc
    exact hi c (by simp at hc; simp [hc])
  have hv : loadVar ctx (.str c!"_Not_Given_") indent content d = .ok (⟨name, none, []⟩, Dict.set d (.s name) a, true) := by
    rw [loadVar_named ctx ⟨name, _⟩ hn content hw]
    have hg : groupDefault (.str c!"_Not_Given_") name d = d := by simp [groupDefault]
    rw [hg]
    have hx : extract ctx name indent (999 + 1) ⟨c!"set", a :: as, kw⟩ ⟨[], d, false⟩ = .ok ⟨[], Dict.set d (.s name) a, true⟩ := by
      rw [extract]
      simp [hstrip, pure_ok]
    simp only [extractAll, eachAttr, show chainDepth = 999 + 1 from rfl, hx, ok_bind, pure_ok]
  rw [hs]
  unfold loadLine
  simp only [e7]
  rw [e3, e4, show l.indent = indent from rfl, hpt]
  simp only [lineVariables, hv, ok_bind, pure_ok, Bool.or_false, if_true]

namespace Ex
/-- template variables with an expression and with chains -/
def exprCtx : LoadCtx := { ctx0 with
  vars := [(c!"pat", .str c!"\\d+"), (c!"one", .str c!"upper | strip"), (c!"two", .list [.str c!"upper", .str c!" strip "]), (c!"loop", .str c!"chain(\"loop\") | upper")],
  eval := Args.eval (fun _ => none), patterns := getPattern, re := ReText.compile }
end Ex

/-- the hypotheses are met: `re("pat")` is the value of the template variable, `IP` the pattern -/
example (r1 r2 : Re) (h1 : ReText.compile c!"\\d+" = some r1) (h2 : ReText.compile c!"(?:[0-9]{1,3}\\.){3}[0-9]{1,3}" = some r2) :
    loadVar Ex.exprCtx (.str c!"_Not_Given_") [] c!"name | re(\"pat\")|IP" [] = .ok (⟨c!"name", none, [.pattern r1, .pattern r2]⟩, [], false) := by
  refine (C164_expressions Ex.exprCtx ⟨c!"name", [⟨c!"re", [.str c!"pat"], []⟩, ⟨c!"IP", [], []⟩]⟩
    ⟨by decide, by decide, by intro c cs e; cases e; decide, by decide⟩ ?_ [c!"\\d+", c!"(?:[0-9]{1,3}\\.){3}[0-9]{1,3}"]
    (.cons ⟨c!"pat", Or.inr ⟨[], rfl⟩, Or.inl ⟨by decide, rfl⟩⟩ (.cons ⟨c!"IP", Or.inl ⟨rfl, rfl⟩, Or.inr ⟨Or.inl rfl, Or.inl rfl⟩⟩ .nil)) [] _
    ⟨[(c!" ", ⟨c!"re", some c!"\"pat\""⟩, []), ([], ⟨c!"IP", none⟩, [])], [], c!" ", by decide, by decide, ?_,
      .cons ⟨rfl, Or.inr ⟨by decide, by decide +kernel⟩⟩ (.cons ⟨rfl, rfl, rfl⟩ .nil)⟩ []).1 [r1, r2] (.cons h1 (.cons h2 .nil))
  · intro f hf
    simp only [List.mem_cons, List.not_mem_nil, or_false] at hf
    rcases hf with rfl | rfl
    · exact Or.inl rfl
    · exact Or.inr ⟨by decide, _, rfl⟩
  · intro i hi
    simp only [List.mem_cons, List.not_mem_nil, or_false] at hi
    rcases hi with rfl | rfl
    · exact ⟨by decide, by decide, by decide, by decide⟩
    · exact ⟨by decide, by decide, by decide, by decide⟩

/-- such expressions exist -/
example : (ReText.compile c!"\\d+").isSome = true ∧ (ReText.compile c!"(?:[0-9]{1,3}\\.){3}[0-9]{1,3}").isSome = true := by decide +kernel

/-- a text that is no expression -/
example : loadVar Ex.exprCtx (.str c!"_Not_Given_") [] c!"name | re(\"(\")" [] = .error .reError := by decide +kernel

/-- `chain` of a text, of a list, of an unknown name, of itself -/
example : loadVar Ex.exprCtx (.str c!"_Not_Given_") [] c!"name | chain(\"one\")" [] =
    .ok (⟨c!"name", none, [.fn ⟨c!"upper", [], []⟩, .fn ⟨c!"strip", [], []⟩]⟩, [], false) := by decide +kernel
example : ChainOf Ex.exprCtx (.str c!"upper | strip") [⟨c!"upper", [], []⟩, ⟨c!"strip", [], []⟩] :=
  Or.inl ⟨_, rfl, [([], ⟨c!"upper", none⟩, c!" "), (c!" ", ⟨c!"strip", none⟩, [])], by simp, by decide, by
    intro i hi
    simp only [List.mem_cons, List.not_mem_nil, or_false] at hi
    rcases hi with rfl | rfl
    · exact ⟨by decide, by decide, by decide, by decide⟩
    · exact ⟨by decide, by decide, by decide, by decide⟩, .cons ⟨rfl, rfl, rfl⟩ (.cons ⟨rfl, rfl, rfl⟩ .nil)⟩
example : loadVar Ex.exprCtx (.str c!"_Not_Given_") [] c!"name | chain(\"two\")" [] =
    .ok (⟨c!"name", none, [.fn ⟨c!"upper", [], []⟩, .fn ⟨c!"strip", [], []⟩]⟩, [], false) := by decide +kernel
example : loadVar Ex.exprCtx (.str c!"_Not_Given_") [] c!"name | chain(\"three\") | upper" [] =
    .ok (⟨c!"name", none, [.fn ⟨c!"upper", [], []⟩]⟩, [], false) := by decide +kernel
example : loadVar Ex.exprCtx (.str c!"_Not_Given_") [] c!"name | chain(\"loop\")" [] = .error .runtimeError := by
  refine C165_forever Ex.exprCtx c!"name" c!"loop" [] [⟨c!"upper", [], []⟩] [] [] [] [] ⟨by decide, by decide, by intro c cs e; cases e; decide, by decide⟩
    (.str c!"chain(\"loop\") | upper") rfl (Or.inl ⟨_, rfl, [([], ⟨c!"chain", some c!"\"loop\""⟩, c!" "), (c!" ", ⟨c!"upper", none⟩, [])], by simp, by decide, ?_,
      .cons ⟨rfl, Or.inr ⟨by decide, by decide +kernel⟩⟩ (.cons ⟨rfl, rfl, rfl⟩ .nil)⟩) _
    ⟨[(c!" ", ⟨c!"chain", some c!"\"loop\""⟩, [])], [], c!" ", by decide, by decide, ?_, .cons ⟨rfl, Or.inr ⟨by decide, by decide +kernel⟩⟩ .nil⟩ _ _ _
  · intro i hi
    simp only [List.mem_cons, List.not_mem_nil, or_false] at hi
    rcases hi with rfl | rfl
    · exact ⟨by decide, by decide, by decide, by decide⟩
    · exact ⟨by decide, by decide, by decide, by decide⟩
  · intro i hi
    simp only [List.mem_cons, List.not_mem_nil, or_false] at hi
    subst hi
    exact ⟨by decide, by decide, by decide, by decide⟩

/-- a line with a default alone -/
example : loadLine Ex.exprCtx (.str c!"_Not_Given_") c!"  {{ name | set(\"up\") }} " [] = .ok (none, [(.s c!"name", .str c!"up")]) := by
  refine C82_set_alone Ex.exprCtx c!"name" (.str c!"up") [] [] ⟨by decide, by decide, by intro c cs e; cases e; decide, by decide⟩ c!" name | set(\"up\") "
    ⟨[(c!" ", ⟨c!"set", some c!"\"up\""⟩, c!" ")], c!" ", c!" ", by decide, by decide, ?_, .cons ⟨rfl, Or.inr ⟨by decide, by decide +kernel⟩⟩ .nil⟩ (by decide) c!"  " c!" " (by decide) []
  intro i hi
  simp only [List.mem_cons, List.not_mem_nil, or_false] at hi
  subst hi
  exact ⟨by decide, by decide, by decide, by decide⟩

end Props
