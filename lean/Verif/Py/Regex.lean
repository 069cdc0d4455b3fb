import Verif.Py.Str
/-!
# A backtracking regular expression engine

Model of Python's `re` for the constructs that TTP generates or uses. A regular expression is a syntax tree; `Re.run`
lists all ways to match at the beginning of a string in the order in which the backtracking engine tries them, so
the head of the list is the match `re` returns. Simplification: a loop iteration has to consume at least one character.
-/

namespace Py

/-- A member of a set `[...]`: a character, a range, or `\s`, `\d`, `\w` (`pos = false`: `\S`, `\D`, `\W`). -/
inductive CItem where
  | ch (c : Char)
  | range (a b : Char)
  | space (pos : Bool)
  | digit (pos : Bool)
  | word (pos : Bool)
  deriving DecidableEq, Repr

/-- is the character one of those the member stands for -/
def CItem.test : CItem → Char → Bool
  | .ch c, x => c == x
  | .range a b, x => decide (a.toNat ≤ x.toNat) && decide (x.toNat ≤ b.toNat)
  | .space pos, x => isSpace x == pos
  | .digit pos, x => isDigit x == pos
  | .word pos, x => isWord x == pos

/-- Character classes. -/
inductive CC where
  /-- a literal character -/
  | lit (c : Char)
  /-- `.`: anything except newline -/
  | dot
  /-- `[\S\s]` -/
  | anyc
  /-- `\s` -/
  | space
  /-- `\S` -/
  | nspace
  /-- `\d` -/
  | digit
  /-- `\w` -/
  | word
  /-- `\W` -/
  | nword
  /-- `[...]` -/
  | oneOf (cs : List Char)
  /-- `[...]`, `[^...]` with ranges and classes inside -/
  | set (neg : Bool) (items : List CItem)
  deriving DecidableEq, Repr

/-- does the class contain the character -/
def CC.test : CC → Char → Bool
  | .lit c, x => c == x
  | .dot, x => x != '\n'
  | .anyc, _ => true
  | .space, x => isSpace x
  | .nspace, x => !isSpace x
  | .digit, x => isDigit x
  | .word, x => isWord x
  | .nword, x => !isWord x
  | .oneOf cs, x => cs.contains x
  | .set neg items, x => items.any (fun i => i.test x) != neg

/-- Regular expressions. -/
inductive Re where
  | eps
  | cls (c : CC)
  | seq (a b : Re)
  | alt (a b : Re)
  | star (greedy : Bool) (r : Re)
  | cap (name : Str) (r : Re)
  | look (r : Re)
  | eos
  deriving DecidableEq, Repr

namespace Re

/-- captures: `(group name, matched text)` -/
abbrev Caps := List (Str × Str)

/-- one way to match: matched text, rest of the input, captures -/
abbrev Hit := Str × Str × Caps

/-- loop worker, fuel bounds the number of iterations -/
def starRun (m : Str → List Hit) (greedy : Bool) : Nat → Str → List Hit
  | 0, s => [([], s, [])]
  | n + 1, s =>
    let more := ((m s).filter (fun h => !h.1.isEmpty)).flatMap fun h =>
      (starRun m greedy n h.2.1).map fun h2 => (h.1 ++ h2.1, h2.2.1, h.2.2 ++ h2.2.2)
    if greedy then more ++ [([], s, [])] else ([], s, []) :: more

/-- all matches at the beginning of the string, in backtracking order -/
def run : Re → Str → List Hit
  | .eps, s => [([], s, [])]
  | .cls c, s =>
    match s with
    | [] => []
    | x :: xs => if c.test x then [([x], xs, [])] else []
  | .seq a b, s =>
    (run a s).flatMap fun h => (run b h.2.1).map fun h2 => (h.1 ++ h2.1, h2.2.1, h.2.2 ++ h2.2.2)
  | .alt a b, s => run a s ++ run b s
  | .star g r, s => starRun (run r) g s.length s
  | .cap n r, s => (run r s).map fun h => (h.1, h.2.1, h.2.2 ++ [(n, h.1)])
  | .look r, s => if (run r s).isEmpty then [] else [([], s, [])]
  | .eos, s => if s.isEmpty || s == ['\n'] then [([], s, [])] else []

/-- `r+` / `r+?` -/
def plus (greedy : Bool) (r : Re) : Re := .seq r (.star greedy r)

/-- literal text -/
def lits : Str → Re
  | [] => .eps
  | c :: cs => .seq (.cls (.lit c)) (lits cs)

/-- sequence of a list -/
def seqs : List Re → Re
  | [] => .eps
  | r :: rs => .seq r (seqs rs)

/-- a match object: `span()`, `group()`, `groupdict()` -/
structure Match where
  start : Nat
  text : Str
  caps : Caps
  deriving DecidableEq, Repr

/-- `match.span()[1]` -/
def Match.stop (m : Match) : Nat := m.start + m.text.length

/-- scanning worker of `finditer`: position, number of characters still covered by the last match -/
def scan (r : Re) : Str → Nat → Nat → List Match
  | [], _, _ + 1 => []
  | [], pos, 0 =>
    match run r [] with
    | [] => []
    | h :: _ => [⟨pos, h.1, h.2.2⟩]
  | _ :: cs, pos, k + 1 => scan r cs (pos + 1) k
  | c :: cs, pos, 0 =>
    match run r (c :: cs) with
    | [] => scan r cs (pos + 1) 0
    | h :: _ => ⟨pos, h.1, h.2.2⟩ :: scan r cs (pos + 1) (h.1.length - 1)

/-- `r.finditer(s)`. Simplification: after an empty match Python looks for a match that is not empty at the same position; here the
search goes on with the next character. The expressions of template lines begin with a newline and never match the empty text. -/
def finditer (r : Re) (s : Str) : List Match := scan r s 0 0

/-- `re.search(r, s)` -/
def search (r : Re) (s : Str) : Option Match := (finditer r s).head?

/-- value of a named group -/
def Match.group (m : Match) (n : Str) : Option Str := Dict.get? m.caps n

/-- worker of `sub`: replace every match by the given text -/
def subAux (r : Re) (repl : Str) : Str → Nat → Str
  | [], _ => []
  | _ :: cs, k + 1 => subAux r repl cs k
  | c :: cs, 0 =>
    match run r (c :: cs) with
    | [] => c :: subAux r repl cs 0
    | h :: _ => if h.1.isEmpty then c :: subAux r repl cs 0 else repl ++ subAux r repl cs (h.1.length - 1)

/-- `re.sub` with an already expanded replacement text; simplification: empty matches are not replaced (the patterns
used never match the empty string) -/
def sub (r : Re) (repl s : Str) : Str := subAux r repl s 0

end Re

end Py
