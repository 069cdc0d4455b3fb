import Verif.Model.Template
import Verif.Spec.Line
import Verif.Spec.Tree
/-!
# Specification vocabulary for the loading of templates

Only the tree of XML elements and the loaded groups are used, none of the functions of the loader (except that lines are those
of `str.splitlines`).
-/

namespace TTP
open Py

/-- the line has a variable: `{{`, at least one character, `}}` -/
def HasVar (line : Str) : Prop := ∃ a b c, b ≠ [] ∧ line = a ++ c!"{{" ++ b ++ c!"}}" ++ c

/-- A line of a template that means nothing: white space only, a comment (`##` after leading white space), or no variable. -/
def Meaningless (line : Str) : Prop :=
  (∀ c ∈ line, isSpace c = true) ∨ (∃ a b, line = a ++ c!"##" ++ b ∧ ∀ c ∈ a, isSpace c = true) ∨ ¬ HasVar line

/-- Two lists of lines that differ only in meaningless lines. -/
inductive SameLines : List Str → List Str → Prop
  | nil : SameLines [] []
  | both (l : Str) {a b : List Str} : SameLines a b → SameLines (l :: a) (l :: b)
  | left (l : Str) {a b : List Str} : Meaningless l → SameLines a b → SameLines (l :: a) b
  | right (l : Str) {a b : List Str} : Meaningless l → SameLines a b → SameLines a (l :: b)

/-- the same for the text of an element -/
inductive SameText : Option Str → Option Str → Prop
  | none : SameText none none
  | some {s t : Str} : SameLines (Format.splitlines s) (Format.splitlines t) → SameText (some s) (some t)

mutual
/-- Two elements that differ only in meaningless lines of their texts and tails (and in their tags). -/
inductive SameXml : Xml → Xml → Prop
  | mk {t t' : Str} {attrib : Dict Str Str} {text text' : Option Str} {cs cs' : List Xml} {tail tail' : Option Str} :
      SameText text text' → SameXmls cs cs' → SameText tail tail' →
      SameXml (.mk t attrib text cs tail) (.mk t' attrib text' cs' tail')
/-- the same for lists of elements -/
inductive SameXmls : List Xml → List Xml → Prop
  | nil : SameXmls [] []
  | cons {x y : Xml} {xs ys : List Xml} : SameXml x y → SameXmls xs ys → SameXmls (x :: xs) (y :: ys)
end

/-! ## Where the results of a group go -/

/-- `ws` are the pieces of `o` between the path characters -/
def Pieces (p : Char) (o : Str) (ws : List Str) : Prop := ws ≠ [] ∧ join [p] ws = o ∧ ∀ w ∈ ws, p ∉ w

/-- The path of a group with the given `name` attribute (`none`: there is none), inside of a group with the path `parent`. -/
inductive PathOf (p : Char) (top : Bool) (parent : List Str) : Option Str → List Str → Prop
  /-- a relative name continues the path of the parent -/
  | relative {o : Str} {ws : List Str} : ¬ c!"/" <+: o → Pieces p o ws → PathOf p top parent (some o) (parent ++ ws)
  /-- a name that begins with slashes is a path of its own -/
  | absolute {slashes o : Str} {ws : List Str} : slashes ≠ [] → (∀ c ∈ slashes, c = '/') → ¬ c!"/" <+: o → o ≠ [] →
      c!"_anonymous_" ∉ parent → Pieces p o ws → PathOf p top parent (some (slashes ++ o)) ws
  /-- below a group named `_anonymous_` it stays in the list of anonymous results -/
  | anonymous {slashes o : Str} {ws : List Str} : slashes ≠ [] → (∀ c ∈ slashes, c = '/') → ¬ c!"/" <+: o →
      c!"_anonymous_" ∈ parent → Pieces p o ws → PathOf p top parent (some (slashes ++ o)) (c!"_anonymous_*" :: ws)
  /-- the root -/
  | root : c!"_anonymous_" ∉ parent → PathOf p top parent (some c!"/") [c!"_anonymous_*"]
  /-- a top group without a name -/
  | noName : top = true → PathOf p top parent none [c!"_anonymous_*"]
  /-- a child group without a name saves where its parent does -/
  | noNameChild : top = false → PathOf p top parent none parent

/-- the `name` attribute, in any case of letters -/
def NameAttr (attrib : Dict Str Str) (nm : Option Str) : Prop :=
  match nm with
  | some o => ∃ k, attrib.filter (fun kv => lower kv.1 == c!"name") = [(k, o)]
  | none => attrib.filter (fun kv => lower kv.1 == c!"name") = []

/-- names that are not empty and not several slashes -/
def NameOK (o : Str) : Prop := o ≠ [] ∧ (o = c!"/" ∨ ∃ c ∈ o, c ≠ '/')

mutual
/-- every element has at most one `name`, which is a proper name -/
inductive NamesOK : Xml → Prop
  | mk {t : Str} {attrib : Dict Str Str} {text : Option Str} {cs : List Xml} {tail : Option Str} (nm : Option Str) :
      NameAttr attrib nm → (∀ o, nm = some o → NameOK o) → NamesAllOK cs → NamesOK (.mk t attrib text cs tail)
/-- the same for lists of elements -/
inductive NamesAllOK : List Xml → Prop
  | nil : NamesAllOK []
  | cons {x : Xml} {xs : List Xml} : NamesOK x → NamesAllOK xs → NamesAllOK (x :: xs)
end

mutual
/-- The loaded group and all groups below it have the path of their names, know their parent, and have an identity made of the path
and the position among their siblings. -/
inductive Placed (p : Char) : Bool → List Str → Option GId → Nat → Xml → Grp → Prop
  | mk {top : Bool} {parent : List Str} {pid : Option GId} {index : Nat} {t : Str} {attrib : Dict Str Str} {text : Option Str}
      {cs : List Xml} {tail : Option Str} {info : GInfo} {s n e : List LineRx} {d : Bool} {gs : List Grp} (nm : Option Str) :
      NameAttr attrib nm → PathOf p top parent nm info.path → info.parent = pid →
      info.gid = (join c!"." info.path ++ (if nm = none then c!"._anonymous_" else []), index) →
      PlacedAll p info.path info.gid 0 cs gs →
      Placed p top parent pid index (.mk t attrib text cs tail) (.mk info s n e d gs)
/-- the children, in order -/
inductive PlacedAll (p : Char) : List Str → GId → Nat → List Xml → List Grp → Prop
  | nil {path : List Str} {gid : GId} {i : Nat} : PlacedAll p path gid i [] []
  | cons {path : List Str} {gid : GId} {i : Nat} {x : Xml} {xs : List Xml} {g : Grp} {gs : List Grp} :
      Placed p false path (some gid) i x g → PlacedAll p path gid (i + 1) xs gs → PlacedAll p path gid i (x :: xs) (g :: gs)
end

end TTP

namespace TTP
open Py

/-! ## Functions of a variable or a group -/

/-- A function as it is written: its name and, in brackets, its arguments. -/
structure AttrText where
  name : Str
  args : Option Str

/-- the text -/
def AttrText.source (a : AttrText) : Str :=
  a.name ++ match a.args with
    | none => []
    | some o => c!"(" ++ o ++ c!")"

/-- a name without white space, brackets and pipes; arguments without pipes and line breaks -/
def AttrText.OK (a : AttrText) : Prop :=
  a.name ≠ [] ∧ (∀ c ∈ a.name, isSpace c = false ∧ c ≠ '(' ∧ c ≠ '|') ∧ ∀ o, a.args = some o → '|' ∉ o ∧ '\n' ∉ o

/-- The call that is meant: the name and the arguments that Python's `eval` gives for the text in the brackets. -/
def AttrText.Means (ctx : LoadCtx) (a : AttrText) (f : FnCall) : Prop :=
  f.name = a.name ∧
    match a.args with
    | none => f.args = [] ∧ f.kwargs = []
    | some o => (o = [] ∧ f.args = [] ∧ f.kwargs = []) ∨ (o ≠ [] ∧ ctx.eval o = some (f.args, f.kwargs))

/-- A pipe of functions as it is written: white space before and after each of them. -/
def pipeSource (items : List (Str × AttrText × Str)) : Str := join c!"|" (items.map (fun i => i.1 ++ i.2.1.source ++ i.2.2))

end TTP

namespace TTP
open Py

/-! ## Template lines with functions, and the defaults they declare -/

/-- A piece of a template line: literal text, or what is written between `{{` and `}}`. -/
inductive Piece where
  | text (t : Str)
  | var (content : Str)

/-- as it is written -/
def Piece.source : Piece → Str
  | .text t => t
  | .var b => c!"{{" ++ b ++ c!"}}"

/-- A template line: indent, pieces, white space at the end. -/
structure TLine where
  indent : Str
  pieces : List Piece
  trail : Str

/-- as it is written -/
def TLine.source (l : TLine) : Str := l.indent ++ (l.pieces.map Piece.source).flatten ++ l.trail

/-- the line has nothing but variables and white space -/
def TLine.Blank (l : TLine) : Prop := ∀ t, Piece.text t ∈ l.pieces → ∀ c ∈ t, isSpace c = true

/-- what is written between the braces, in order -/
def TLine.contents (l : TLine) : List Str := l.pieces.filterMap (fun p => match p with
  | .text _ => none
  | .var b => some b)

/-- Text without `{`, variables without `}`, at least one variable, no comment; the pieces begin and end with something else than
white space. -/
structure TLine.OK (l : TLine) : Prop where
  indent : ∀ c ∈ l.indent, isSpace c = true
  trail : ∀ c ∈ l.trail, isSpace c = true
  text : ∀ t, Piece.text t ∈ l.pieces → '{' ∉ t
  var : ∀ b, Piece.var b ∈ l.pieces → b ≠ [] ∧ '}' ∉ b
  some_var : l.contents ≠ []
  first : ∃ c t, (l.pieces.map Piece.source).flatten = c :: t ∧ isSpace c = false
  last : ∃ t c, (l.pieces.map Piece.source).flatten = t ++ [c] ∧ isSpace c = false
  no_comment : ¬ c!"##" <+: (l.pieces.map Piece.source).flatten

/-- A variable in parsed form: is it on a line without text, its name, its functions. -/
structure PVar where
  blank : Bool
  name : Str
  attrs : List FnCall

/-- the default value that a function of a variable declares: `default(v)`; `default` without or with several arguments is the text
`None`; `set(v)` on a line without text -/
def declares (blank : Bool) (f : FnCall) : Option Val :=
  if f.name = c!"default" then
    match f.args with
    | [v] => some v
    | _ => some (.str c!"None")
  else if f.name = c!"set" ∧ blank = true then f.args.head?
  else none

/-- the defaults that are declared for the name `n`, in the order of the template -/
def declared (n : Str) (vs : List PVar) : List Val :=
  (vs.map (fun v => if v.name = n then v.attrs.filterMap (declares v.blank) else [])).flatten

/-- The variables of template lines, in order; the functions are those of the pipe (see C84). Not for names that are words of the
template language other than `_start_`, `_end_`, `_line_` and `ignore`, and not for the function `chain`. -/
inductive VarsOf (ctx : LoadCtx) : List TLine → List PVar → Prop
  | nil : VarsOf ctx [] []
  | cons {l : TLine} {ls : List TLine} {vs ws : List PVar} : l.OK →
      Spec.All2 (fun b v => ∃ h, getAttributes ctx b = .ok (h :: v.attrs) ∧ v.name = h.name ∧ (v.blank = true ↔ l.Blank) ∧
        (∀ c ∈ v.name, isWord c = true) ∧ (∀ c cs, v.name = c :: cs → isDigit c = false) ∧
        (v.name ∈ keywords → v.name ∈ skipDefaults) ∧ ∀ f ∈ v.attrs, f.name ≠ c!"chain") l.contents vs →
      VarsOf ctx ls ws → VarsOf ctx (l :: ls) (vs ++ ws)

/-- the `default` attribute of a group, in any case of letters -/
def DefaultAttr (attrib : Dict Str Str) (nm : Option Str) : Prop :=
  match nm with
  | some o => ∃ k, attrib.filter (fun kv => lower kv.1 == c!"default") = [(k, o)]
  | none => attrib.filter (fun kv => lower kv.1 == c!"default") = []

/-- the lines that belong to an element itself: its text and what follows its children -/
def Xml.ownLines : Xml → List Str
  | .mk _ _ text children _ => (text.map Format.splitlines).getD [] ++
      (children.map (fun c => (c.tail.map Format.splitlines).getD [])).flatten

/-- Lines as they stand in a template: meaningless lines and the given ones. -/
inductive LinesAre : List Str → List TLine → Prop
  | nil : LinesAre [] []
  | skip {s : Str} {ss : List Str} {ls : List TLine} : Meaningless s → LinesAre ss ls → LinesAre (s :: ss) ls
  | line {ss : List Str} {ls : List TLine} (l : TLine) : LinesAre ss ls → LinesAre (l.source :: ss) (l :: ls)

end TTP
