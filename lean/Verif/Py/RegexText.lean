import Verif.Py.Regex
/-!
# The text of a regular expression

Model of the syntax `re.compile` accepts (CPython's `re/_parser.py`), as far as TTP's own expressions and usual patterns of
users need it: literals, escapes, `.`, `$`, `[...]`, groups, `(?:...)`, `(?P<name>...)`, `(?=...)`, `|` and the quantifiers
`*`, `+`, `?`, `{m}`, `{m,}`, `{,n}`, `{m,n}` with their lazy forms. Everything else - `^`, `\b`, `\A`, `\Z`, numeric escapes,
back-references, other `(?...)`, possessive quantifiers, named groups inside a repetition - is not modelled: the result is `none`,
as it is for texts that are no regular expression.
-/

namespace Py
namespace ReText

/-! ## Quantifiers -/

/-- `0`-`9`, `DIGITS` of `re/_parser.py` -/
def digitRun : Str → Str × Str
  | c :: cs => if isDigit c then (c :: (digitRun cs).1, (digitRun cs).2) else ([], c :: cs)
  | [] => ([], [])

/-- the bounds of `{...}` after the opening brace; `none`: it is no quantifier and `{` is a literal -/
def braces (s : Str) : Option (Nat × Option Nat × Str) :=
  match (digitRun s).2 with
  | '}' :: q => if (digitRun s).1 = [] then none else some (natOfDigits (digitRun s).1, some (natOfDigits (digitRun s).1), q)
  | ',' :: r =>
    match (digitRun r).2 with
    | '}' :: q =>
      some (natOfDigits (digitRun s).1, if (digitRun r).1 = [] then none else some (natOfDigits (digitRun r).1), q)
    | _ => none
  | _ => none

/-- a quantifier at the beginning of the text: least and greatest number, the rest -/
def quantHead : Str → Option (Nat × Option Nat × Str)
  | '*' :: q => some (0, none, q)
  | '+' :: q => some (1, none, q)
  | '?' :: q => some (0, some 1, q)
  | '{' :: q => braces q
  | _ => none

/-- `r` `n` times, then `t` -/
def times : Nat → Re → Re → Re
  | 0, _, t => t
  | n + 1, r, t => .seq r (times n r t)

/-- `r` at most `n` times -/
def atMost (greedy : Bool) : Nat → Re → Re
  | 0, _ => .eps
  | n + 1, r => if greedy then .alt (.seq r (atMost greedy n r)) .eps else .alt .eps (.seq r (atMost greedy n r))

/-- a repetition; `none`: `{m,n}` with `m > n` -/
def repeated (greedy : Bool) (lo : Nat) (hi : Option Nat) (r : Re) : Option Re :=
  match hi with
  | none => some (times lo r (.star greedy r))
  | some h => if h < lo then none else some (times lo r (atMost greedy (h - lo) r))

/-- names of the groups of an expression -/
def names : Re → List Str
  | .eps => []
  | .cls _ => []
  | .seq a b => names a ++ names b
  | .alt a b => names a ++ names b
  | .star _ r => names r
  | .cap n r => n :: names r
  | .look r => names r
  | .eos => []

/-- `?` after a quantifier makes it lazy -/
def lazyMark : Str → Bool × Str
  | '?' :: q => (true, q)
  | q => (false, q)

/-- the quantifier after an item, if there is one; two quantifiers are an error (or possessive) -/
def quant (r : Re) (s : Str) : Option (Re × Str) :=
  match quantHead s with
  | none => some (r, s)
  | some (lo, hi, q) =>
    if (quantHead (lazyMark q).2).isSome || !(names r).isEmpty then none
    else (repeated (!(lazyMark q).1) lo hi r).map (fun x => (x, (lazyMark q).2))

/-! ## Characters and sets -/

/-- `\f`, `\n`, ... : the letters for control characters -/
def control : Char → Option Char
  | 'a' => some (Char.ofNat 7)
  | 'f' => some (Char.ofNat 12)
  | 'n' => some '\n'
  | 'r' => some '\r'
  | 't' => some '\t'
  | 'v' => some (Char.ofNat 11)
  | _ => none

/-- `\d`, `\D`, `\s`, `\S`, `\w`, `\W` -/
def category : Char → Option CItem
  | 'd' => some (.digit true)
  | 'D' => some (.digit false)
  | 's' => some (.space true)
  | 'S' => some (.space false)
  | 'w' => some (.word true)
  | 'W' => some (.word false)
  | _ => none

/-- the character after a backslash as itself: not for letters and digits -/
def plainEscape (c : Char) : Option Char := if isAlnum c then none else some c

/-- a member of a set: a character, or a category -/
inductive Member where
  | ch (c : Char)
  | cat (i : CItem)
  deriving DecidableEq, Repr

/-- the member of a set -/
def Member.item : Member → CItem
  | .ch c => .ch c
  | .cat i => i

/-- an escape in a set, `_class_escape`; `\b` is not modelled -/
def classEscape (c : Char) : Option Member :=
  match category c with
  | some i => some (.cat i)
  | none =>
    match control c with
    | some x => some (.ch x)
    | none => (plainEscape c).map .ch

/-- one member and the rest of the text -/
def member : Str → Option (Member × Str)
  | '\\' :: c :: q => (classEscape c).map (fun m => (m, q))
  | '\\' :: [] => none
  | c :: q => some (.ch c, q)
  | [] => none

/-- the second end of a range -/
def rangeEnd (a : Member) (s : Str) : Option (CItem × Str) :=
  match a, member s with
  | .ch x, some (.ch y, q) => if x.toNat ≤ y.toNat then some (.range x y, q) else none
  | _, _ => none

/-- What follows a member of a set: the end with a literal `-`, a range, or another member; `more` reads the rest. -/
def setNext (more : Str → Option (List CItem × Str)) (m : Member) : Str → Option (List CItem × Str)
  | '-' :: ']' :: q => some ([m.item, .ch '-'], q)
  | '-' :: q =>
    match rangeEnd m q with
    | none => none
    | some (i, q') => (more q').map (fun x => (i :: x.1, x.2))
  | q => (more q).map (fun x => (m.item :: x.1, x.2))

/-- The members of a set up to the closing bracket; a bracket right at the beginning (`first`) is a member. The first argument
bounds the recursion (length of the text). -/
def setItems : Nat → Bool → Str → Option (List CItem × Str)
  | 0, _, _ => none
  | n + 1, first, s =>
    if !first && s.head? == some ']' then some ([], s.tail)
    else
      match member s with
      | none => none
      | some (m, r) => setNext (setItems n false) m r

/-- `[...]` after the opening bracket -/
def setText : Str → Option (CC × Str)
  | '^' :: q => (setItems q.length true q).map (fun x => (.set true x.1, x.2))
  | q => (setItems q.length true q).map (fun x => (.set false x.1, x.2))

/-- a category as a class of its own -/
def catClass : CItem → CC
  | .space true => .space
  | .space false => .nspace
  | .digit true => .digit
  | .word true => .word
  | .word false => .nword
  | i => .set false [i]

/-- an escape outside of sets, `_escape` -/
def escape (c : Char) : Option CC :=
  match category c with
  | some i => some (catClass i)
  | none =>
    match control c with
    | some x => some (.lit x)
    | none => (plainEscape c).map .lit

/-! ## Groups -/

/-- what stands at the beginning of an item -/
inductive Head where
  | one (c : CC)
  | eos
  | group
  | named (n : Str)
  | look
  deriving DecidableEq, Repr

/-- is it a name of a group -/
def nameOk : Str → Bool
  | [] => false
  | c :: cs => !isDigit c && (c :: cs).all isWord

/-- the text up to `>` -/
def untilGt : Str → Option (Str × Str)
  | [] => none
  | '>' :: q => some ([], q)
  | c :: q => (untilGt q).map (fun x => (c :: x.1, x.2))

/-- `(?P<name>` after `<` -/
def namedHead (q : Str) : Option (Head × Str) :=
  match untilGt q with
  | some (n, q') => if nameOk n then some (.named n, q') else none
  | none => none

/-- the beginning of an item -/
def head : Str → Option (Head × Str)
  | [] => none
  | '(' :: '?' :: ':' :: q => some (.group, q)
  | '(' :: '?' :: '=' :: q => some (.look, q)
  | '(' :: '?' :: 'P' :: '<' :: q => namedHead q
  | '(' :: '?' :: _ => none
  | '(' :: q => some (.group, q)
  | '[' :: q => (setText q).map (fun x => (.one x.1, x.2))
  | '\\' :: c :: q => (escape c).map (fun x => (.one x, q))
  | '\\' :: [] => none
  | '.' :: q => some (.one .dot, q)
  | '$' :: q => some (.eos, q)
  | '{' :: q => if (braces q).isSome then none else some (.one (.lit '{'), q)
  | c :: q => if c ∈ ['^', '*', '+', '?', ')', '|'] then none else some (.one (.lit c), q)

/-- a group around an expression -/
def Head.wrap : Head → Re → Re
  | .named n, r => .cap n r
  | .look, r => .look r
  | _, r => r

/-! ## Expressions -/

/-- what is read: alternatives, a sequence, or an item with its quantifier -/
inductive Mode where
  | alts
  | sequence
  | item
  deriving DecidableEq, Repr

/-- does a sequence end here -/
def ends : Str → Bool
  | [] => true
  | c :: _ => c == '|' || c == ')'

/-- a group after its beginning: the expression up to the closing parenthesis and the quantifier -/
def closeGroup (h : Head) : Option (Re × Str) → Option (Re × Str)
  | some (a, ')' :: q) => quant (h.wrap a) q
  | _ => none

/-- the alternatives after the first one; `more` reads them -/
def moreAlts (more : Str → Option (Re × Str)) : Option (Re × Str) → Option (Re × Str)
  | some (a, '|' :: q) => (more q).map (fun x => (.alt a x.1, x.2))
  | x => x

/-- the rest of a sequence; `more` reads it -/
def moreItems (more : Str → Option (Re × Str)) : Option (Re × Str) → Option (Re × Str)
  | some (a, q) => (more q).map (fun x => (.seq a x.1, x.2))
  | none => none

/-- Reads alternatives, a sequence or an item: the expression and the rest of the text. The first argument bounds the
recursion. -/
def parse : Nat → Mode → Str → Option (Re × Str)
  | 0, _, _ => none
  | n + 1, .alts, s => moreAlts (parse n .alts) (parse n .sequence s)
  | n + 1, .sequence, s => if ends s then some (.eps, s) else moreItems (parse n .sequence) (parse n .item s)
  | n + 1, .item, s =>
    match head s with
    | none => none
    | some (.one c, q) => quant (.cls c) q
    | some (.eos, q) => if (quantHead q).isSome then none else some (.eos, q)
    | some (h, q) => closeGroup h (parse n .alts q)

/-- The whole text as an expression, whatever the names of its groups. -/
def parseAll (t : Str) : Option Re :=
  match parse (3 * t.length + 3) .alts t with
  | some (r, []) => some r
  | _ => none

/-- `re.compile`: the names of the groups have to be different from each other -/
def compile (t : Str) : Option Re :=
  match parseAll t with
  | some r => if (names r).Nodup then some r else none
  | none => none

/-! ## Escaping -/

/-- characters `re.escape` puts a backslash before, `re._special_chars_map` -/
def special : Str := c!"()[]{}?*+-|^$\\.&~# \t\n\r" ++ [Char.ofNat 11, Char.ofNat 12]

/-- one character escaped -/
def escapeChar (c : Char) : Str := if c ∈ special then ['\\', c] else [c]

/-- `re.escape(s)` -/
def escapeText (s : Str) : Str := s.flatMap escapeChar

end ReText
end Py
