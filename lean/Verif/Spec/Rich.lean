import Verif.Spec.Whole
import Verif.Spec.Template
import Verif.Spec.Patterns
import Verif.Spec.ArgVars
import Verif.Spec.Exprs
/-!
# Specification: what a template with one flat group makes of a text, with patterns, functions, defaults and marks

Written without the loader, the line compiler, the search and the results machine. Taken from the model: the types of XML elements and
of function calls, the interface of match functions, and how a pipe of functions is written (`pipeSource`, Spec/Template). What a named
pattern matches is `NamedMatch` (Spec/Patterns, spelled out by C132).
-/

namespace Spec
open Py TTP

/-- the patterns that can be asked for by name -/
def patternNames : List Str :=
  [c!"WORD", c!"DIGIT", c!"PHRASE", c!"ROW", c!"ORPHRASE", c!"IP", c!"PREFIX", c!"IPV6", c!"PREFIXV6", c!"MAC"]

/-- functions whose arguments can be names of template variables -/
def argFunctions : List Str :=
  [c!"contains_re", c!"startswith_re", c!"endswith_re", c!"notstartswith_re", c!"notendswith_re", c!"exclude_re", c!"exclude",
   c!"contains", c!"equal", c!"notequal", c!"sformat"]

/-- A variable: its name and what follows in the pipe. -/
structure RVar where
  name : Str
  opts : List FnCall

/-- what is neither a pattern nor an expression nor `default`, `_start_` or `_end_`: functions that are applied to the value, in order -/
def RVar.checks (v : RVar) : List FnCall :=
  v.opts.filter (fun f => decide (f.name ∉ c!"re" :: c!"default" :: c!"_start_" :: c!"_end_" :: patternNames))

/-- the values given to `default` -/
def RVar.dflts (v : RVar) : List Val := v.opts.filterMap (fun f => if f.name = c!"default" then f.args.head? else none)

/-- is the variable marked with `_start_` or `_end_`: the last mark counts -/
def RVar.mark (v : RVar) : Option Bool :=
  (v.opts.filterMap (fun f => if f.name = c!"_start_" then some true else if f.name = c!"_end_" then some false else none)).getLast?

/-- The texts that a variable stands for: those of one of its patterns and expressions; a word if there is none. -/
def RVar.Holds (v : RVar) (u : Str) : Prop :=
  ((∀ f ∈ v.opts, f.name ≠ c!"re" ∧ f.name ∉ patternNames) ∧ Word u) ∨
  (∃ f ∈ v.opts, f.name ∈ patternNames ∧ NamedMatch f.name u) ∨
  ∃ f ∈ v.opts, ∃ t, f.name = c!"re" ∧ f.args = [.str t] ∧ FullMatch t u

/-- no named groups, nothing that looks beyond the match -/
def SimpleRe : Re → Prop
  | .eps => True
  | .cls _ => True
  | .seq a b => SimpleRe a ∧ SimpleRe b
  | .alt a b => SimpleRe a ∧ SimpleRe b
  | .star _ r => SimpleRe r
  | .cap _ _ => False
  | .look _ => False
  | .eos => False

/-- a regular expression without named groups, lookahead and anchors that matches no line break -/
def LineExpr (t : Str) : Prop := (∃ r, ReText.compile t = some r ∧ SimpleRe r) ∧ ∀ u, FullMatch t u → '\n' ∉ u

/-- Options that are covered: patterns by name, `re(text)`, `default(value)`, `_start_`, `_end_`, functions whose arguments can be names of template
variables and functions that have no special meaning in the template language. -/
def OptOK (f : FnCall) : Prop :=
  (f.name ∈ patternNames ∧ f.args = []) ∨ (f.name = c!"default" ∧ ∃ a, f.args = [a]) ∨ f.name = c!"_start_" ∨
  f.name = c!"_end_" ∨ f.name ∈ argFunctions ∨ (f.name ∉ reserved ∧ f.name ∉ patternNames) ∨ (f.name = c!"re" ∧ ∃ t, f.args = [.str t] ∧ LineExpr t)

/-- Variables that are covered. -/
structure RVar.OK (v : RVar) : Prop where
  name : v.name ≠ [] ∧ (∀ c ∈ v.name, isWord c = true) ∧ (∀ c cs, v.name = c :: cs → isDigit c = false) ∧ v.name ∉ reserved
  opts : ∀ f ∈ v.opts, OptOK f

/-- The variable as it is written between the braces: name and functions with pipes between them, white space around; the arguments of
the functions are what Python's `eval` makes of the text (`ctx.eval`, see C143). -/
def RVar.Written (ctx : LoadCtx) (v : RVar) (content : Str) : Prop :=
  ∃ items b b', content = pipeSource ((b, ⟨v.name, none⟩, b') :: items) ∧ (∀ c ∈ b ++ b', isSpace c = true) ∧
    (∀ i ∈ items, (∀ c ∈ i.1 ++ i.2.2, isSpace c = true) ∧ i.2.1.OK) ∧ All2 (fun i f => i.2.1.Means ctx f) items v.opts

/-- What a function that is written in a template means, with the template variables put in: arguments that name a variable stand for its value (C163);
`re(text)` and the patterns by name are the expression that is found for the text (C164), or the pattern of that name if there is no variable of that name. -/
inductive Plainly (ctx : LoadCtx) : FnCall → FnCall → Prop
  | self {f : FnCall} : f.name ∉ c!"re" :: c!"chain" :: argFunctions → f.name ∉ patternNames → Plainly ctx f f
  | arg {f : FnCall} : f.name ∈ argFunctions → (∀ a ∈ f.args, ¬ IsStructure a) → Plainly ctx f { f with args := f.args.map (argTaken ctx.vars) }
  | pattern {f : FnCall} {s : Str} : f.name ∈ c!"re" :: patternNames → ExprAsked f s → s ∈ patternNames → s ∉ Dict.keys ctx.vars →
      Plainly ctx f ⟨s, [], f.kwargs⟩
  | expr {f : FnCall} {s t : Str} : f.name ∈ c!"re" :: patternNames → ExprAsked f s → ExprFound ctx.vars ctx.patterns s t →
      Plainly ctx f ⟨c!"re", [.str t], f.kwargs⟩

/-- ... and with `chain("name")` replaced by the functions of the template variable (C165). -/
inductive StandsFor (ctx : LoadCtx) : FnCall → List FnCall → Prop
  | one {f g : FnCall} : Plainly ctx f g → StandsFor ctx f [g]
  | chain {s : Str} {as : List Val} {kw : Dict Str Val} {v : Val} {fs gs : List FnCall} : Dict.get? ctx.vars s = some v → ChainOf ctx v fs →
      All2 (Plainly ctx) fs gs → StandsFor ctx ⟨c!"chain", .str s :: as, kw⟩ gs
  | noChain {s : Str} {as : List Val} {kw : Dict Str Val} : s ∉ Dict.keys ctx.vars → StandsFor ctx ⟨c!"chain", .str s :: as, kw⟩ []

/-- The text between the braces means the variable: its options are what the written functions stand for. -/
def RVar.Meant (ctx : LoadCtx) (v : RVar) (content : Str) : Prop :=
  ∃ fs gss, (⟨v.name, fs⟩ : RVar).Written ctx content ∧ All2 (StandsFor ctx) fs gss ∧ v.opts = gss.flatten

/-- The texts that `ignore` stands for: a word, or what the expression matches. -/
def IgnHolds : Option Str → Str → Prop
  | none, u => Word u
  | some t, u => FullMatch t u

/-- The text between the braces is `ignore` (with white space around) or `ignore(name)` where `name` is the name of a template variable or of a
pattern, or an expression itself (C164). -/
def IgnMeant (ctx : LoadCtx) (e : Option Str) (content : Str) : Prop :=
  ∃ i b b' as kw, content = pipeSource [(b, i, b')] ∧ (∀ c ∈ b ++ b', isSpace c = true) ∧ i.OK ∧ i.Means ctx ⟨c!"ignore", as, kw⟩ ∧
    ((as = [] ∧ e = none) ∨ ∃ s t, as = [.str s] ∧ ExprFound ctx.vars ctx.patterns s t ∧ e = some t)

/-- A piece of a template line: literal text, a variable with the text between the braces, or `ignore` with its expression and the text between
the braces. -/
inductive RPiece where
  | text (t : Str)
  | var (v : RVar) (content : Str)
  | ign (e : Option Str) (content : Str)

/-- as it is written -/
def RPiece.source : RPiece → Str
  | .text t => t
  | .var _ b => c!"{{" ++ b ++ c!"}}"
  | .ign _ b => c!"{{" ++ b ++ c!"}}"

/-- A template line: indent, pieces, white space at the end. -/
structure RLine where
  indent : Str
  pieces : List RPiece
  trail : Str

/-- the line without indent and white space at the end -/
def RLine.body (l : RLine) : Str := (l.pieces.map RPiece.source).flatten

/-- as it is written -/
def RLine.source (l : RLine) : Str := l.indent ++ l.body ++ l.trail

/-- variables of a line -/
def varsOf : List RPiece → List RVar
  | [] => []
  | .text _ :: ps => varsOf ps
  | .var v _ :: ps => v :: varsOf ps
  | .ign _ _ :: ps => varsOf ps

/-- no two texts one after the other -/
def Parted : List RPiece → Prop
  | .text _ :: .text _ :: _ => False
  | _ :: ps => Parted ps
  | [] => True

/-- blank or no white space at all -/
def OneLined (s : Str) : Prop := ∀ c ∈ s, Blank c ∨ isSpace c = false

/-- Lines that can be written in a template: texts without braces, variables as above, each name once, `ignore`, at least one variable, blanks
around, no comment, not `_exact_`. -/
structure RLine.OK (ctx : LoadCtx) (l : RLine) : Prop where
  indent : ∀ c ∈ l.indent, Blank c
  trail : ∀ c ∈ l.trail, Blank c
  text : ∀ t, RPiece.text t ∈ l.pieces → '{' ∉ t ∧ OneLined t
  parted : Parted l.pieces
  var : ∀ v b, RPiece.var v b ∈ l.pieces → v.OK ∧ v.Meant ctx b ∧ '}' ∉ b ∧ OneLined b
  some : varsOf l.pieces ≠ []
  names : ((varsOf l.pieces).map (·.name)).Nodup
  first : ∃ c t, l.body = c :: t ∧ isSpace c = false
  last : ∃ t c, l.body = t ++ [c] ∧ isSpace c = false
  comment : ¬ c!"##" <+: l.body
  exact : ¬ c!"_exact_" <:+: l.indent ++ l.body
  ign : ∀ e b, RPiece.ign e b ∈ l.pieces → (∀ t, e = Option.some t → LineExpr t) ∧ IgnMeant ctx e b ∧ '}' ∉ b ∧ OneLined b

/-- `Fills pieces x vals`: the text `x` is the line with every variable and every `ignore` replaced by a text that it holds, every run of blanks by some
run of blanks and every run of digits of the literal text by some run of digits; `vals` are the texts of the variables. -/
inductive Fills : List RPiece → Str → List (RVar × Str) → Prop
  | nil : Fills [] [] []
  | text {t x y : Str} {ps : List RPiece} {vals : List (RVar × Str)} : LitMatch True True t x → Fills ps y vals →
      Fills (.text t :: ps) (x ++ y) vals
  | var {v : RVar} {b u y : Str} {ps : List RPiece} {vals : List (RVar × Str)} : v.Holds u → Fills ps y vals →
      Fills (.var v b :: ps) (u ++ y) ((v, u) :: vals)
  | ign {e : Option Str} {b u y : Str} {ps : List RPiece} {vals : List (RVar × Str)} : IgnHolds e u → Fills ps y vals →
      Fills (.ign e b :: ps) (u ++ y) vals

/-- the text line `t` (that may end with blanks and a carriage return) is the template line with these values -/
def RLine.Fits (l : RLine) (t : Str) (vals : List (RVar × Str)) : Prop :=
  ∃ x b r, Fills l.pieces x vals ∧ (∀ c ∈ b, Blank c) ∧ (r = [] ∨ r = c!"\r") ∧ t = l.indent ++ x ++ b ++ r

/-- What the functions of a variable make of its text: each gets the result of the one before; the value is rejected (`none`) if one of
them says no. (Functions that add fields or change variables are not covered.) -/
inductive Judged (mf : MatchFns) (env : Env) : List FnCall → Val → Option Val → Prop
  | done (v : Val) : Judged mf env [] v (some v)
  | go {f : FnCall} {fs : List FnCall} {v w : Val} {fl : Flag} {out : Option Val} : mf f env v = .ok (env, w, fl) → (fl = .nothing ∨ fl = .yes) →
      Judged mf env fs w out → Judged mf env (f :: fs) v out
  | no {f : FnCall} {fs : List FnCall} {v w : Val} : mf f env v = .ok (env, w, .no) → Judged mf env (f :: fs) v none

/-- The values of a line: all variables, or nothing if the value of one of them is rejected. -/
inductive Valued (mf : MatchFns) (env : Env) : List (RVar × Str) → Option (Dict Key Val) → Prop
  | nil : Valued mf env [] (some [])
  | go {v : RVar} {u : Str} {w : Val} {vals : List (RVar × Str)} {d : Dict Key Val} : Judged mf env v.checks (.str u) (some w) →
      Valued mf env vals (some d) → Valued mf env ((v, u) :: vals) (some ((.s v.name, w) :: d))
  | no {v : RVar} {u : Str} {vals : List (RVar × Str)} : Judged mf env v.checks (.str u) none → Valued mf env ((v, u) :: vals) none
  | later {v : RVar} {u : Str} {w : Val} {vals : List (RVar × Str)} : Judged mf env v.checks (.str u) (some w) →
      Valued mf env vals none → Valued mf env ((v, u) :: vals) none

/-- what a line of the template does -/
inductive LineKind where
  | start | stop | normal
  deriving DecidableEq, Repr

/-- A line starts a record if one of its variables is marked with `_start_`, or if it is the first line of the group; it ends the
record if its last variable is marked with `_end_` (which is stronger than being the first line). -/
def kindOf (j : Nat) (l : RLine) : LineKind :=
  if (varsOf l.pieces).any (fun v => v.mark = some true) then .start
  else if ((varsOf l.pieces).getLast?.bind (·.mark)) = some false then .stop
  else if j = 0 then .start else .normal

/-- How a text line is read: it fits exactly one of the template lines, with one choice of values (the number of the line, and what its
functions make of the values), or none. -/
def RichReads (mf : MatchFns) (env : Env) (tpl : List RLine) (t : Str) : Option (Nat × Option (Dict Key Val)) → Prop
  | some (j, out) => ∃ l vals, tpl[j]? = some l ∧ l.Fits t vals ∧ Valued mf env vals out ∧
      ∀ i l' vals', tpl[i]? = some l' → l'.Fits t vals' → i = j ∧ vals' = vals
  | none => ∀ l ∈ tpl, ∀ vals, ¬ l.Fits t vals

/-- the kind of the line with that number -/
def kindAt (tpl : List RLine) (j : Nat) : LineKind := ((tpl[j]?).map (kindOf j)).getD .normal

/-- What a text line does: a valid start line starts a record; after a rejected start line and after an end line, lines are ignored up to
the next start; other lines add their values; rejected ordinary lines do not matter. -/
def richEv (tpl : List RLine) (r : Nat × Option (Dict Key Val)) : Option Ev :=
  match kindAt tpl r.1, r.2 with
  | .start, some d => some (.start d)
  | .start, none => some .badStart
  | .stop, _ => some .badStart
  | .normal, some d => some (.line d)
  | .normal, none => none

/-- default values, by name of the variable: later ones replace earlier ones -/
def richDefaults (tpl : List RLine) : Dict Key Val :=
  ((tpl.flatMap (fun l => varsOf l.pieces)).flatMap (fun v => v.dflts.map (fun x => (v.name, x)))).foldl
    (fun d nx => Dict.set d (.s nx.1) nx.2) []

/-- a variable of a start line has a default -/
def StartDefault (tpl : List RLine) : Prop :=
  ∃ (j : Nat) (l : RLine), tpl[j]? = some l ∧ kindOf j l = .start ∧ ∃ v ∈ varsOf l.pieces, Key.s v.name ∈ Dict.keys (richDefaults tpl)

/-- the text line was read as a start line -/
def IsStart (tpl : List RLine) : Option (Nat × Option (Dict Key Val)) → Prop
  | some r => kindAt tpl r.1 = .start
  | none => False

/-- `evs` is what a text with these readings does: a text without any start line gives the defaults once, if there is a default for a
start line. -/
def RichEvs (tpl : List RLine) (reads : List (Option (Nat × Option (Dict Key Val)))) (evs : List Ev) : Prop :=
  ((∀ r ∈ reads, ¬ IsStart tpl r) ∧ StartDefault tpl ∧ evs = [.start []]) ∨
  (¬ ((∀ r ∈ reads, ¬ IsStart tpl r) ∧ StartDefault tpl) ∧ evs = (reads.filterMap id).filterMap (richEv tpl))

/-- `v` is what a template with the one group `name*` that has these lines makes of the text `d`. -/
def RichMeans (mf : MatchFns) (env : Env) (name : Str) (toInt : Bool) (tpl : List RLine) (d : Str) (v : Val) : Prop :=
  ∃ reads evs recs, All2 (RichReads mf env tpl) (splitC '\n' d) reads ∧ RichEvs tpl reads evs ∧
    All2 (IsRecordOf (richDefaults tpl)) (segments evs) recs ∧
    v = if recs = [] then .dict [] else .dict [(pathKey toInt name, .list (recs.map .dict))]

/-- every line of the text is read as at most one template line, with one choice of values, and its functions give an answer -/
def RichClear (mf : MatchFns) (env : Env) (tpl : List RLine) (d : Str) : Prop := ∀ t ∈ splitC '\n' d, ∃ r, RichReads mf env tpl t r

/-- the group element `<group name="...">` with these lines -/
def richXml (name : Str) (tpl : List RLine) (tail : Option Str) : Xml :=
  .mk c!"group" [(c!"name", name)] (some ('\n' :: (tpl.map (fun l => l.source ++ c!"\n")).flatten)) [] tail

/-- no default is a text that is the name of a variable (such a default stands for the value of the variable) -/
def DefaultsPlain (env : Env) (tpl : List RLine) : Prop :=
  ∀ kv ∈ richDefaults tpl, ∀ s, kv.2 = .str s → s ∉ Dict.keys env.vars ∧ s ∉ Dict.keys env.gvars

/-- end lines have no functions (a rejected end line still ends the search in the code) -/
def EndsPlain (tpl : List RLine) : Prop :=
  ∀ (j : Nat) (l : RLine), tpl[j]? = some l → kindOf j l = .stop → ∀ v ∈ varsOf l.pieces, v.checks = []

end Spec
