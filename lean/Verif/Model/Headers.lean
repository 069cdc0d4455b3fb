import Verif.Model.Line
/-!
# Lines of headings

Model of `regex_headers`, ttp/ttp.py 2236-2297: the regular expression of a template line `Port  Name  Status {{ _headers_ }}`.
-/

namespace TTP
open Py

/-- worker of `headings`: what is known of the current heading, was its last character white space -/
def cutHeadings : Str → Bool → Str → List Str
  | cur, _, [] => if cur = [] then [] else [cur]
  | cur, sp, c :: cs =>
    if isSpace c then
      if cur = [] then cutHeadings [] false cs else cutHeadings (cur ++ [c]) true cs
    else if sp then cur :: cutHeadings [c] false cs
    else cutHeadings (cur ++ [c]) false cs

/-- `re.findall(r"(\S+\s+|\S+)", s)`, ttp/ttp.py 2250: words with the white space after them -/
def headings (s : Str) : List Str := cutHeadings [] false s

/-- `.{n}` -/
def dots : Nat → Re
  | 0 => .eps
  | n + 1 => .seq (.cls .dot) (dots n)

/-- `.{0,n}` -/
def upTo : Nat → Re
  | 0 => .eps
  | n + 1 => .alt (.seq (.cls .dot) (upTo n)) .eps

/-- `xs[:k]` -/
def sliceTo {α : Type} (xs : List α) (k : Int) : List α := if k < 0 then xs.take (xs.length - k.natAbs) else xs.take k.toNat

/-- `xs[k:]` -/
def sliceFrom {α : Type} (xs : List α) (k : Int) : List α := if k < 0 then xs.drop (xs.length - k.natAbs) else xs.drop k.toNat

/-- `xs[k]` -/
def atIndex {α : Type} (xs : List α) (k : Int) : PyM α :=
  if k < 0 then
    if k.natAbs ≤ xs.length then
      match xs[xs.length - k.natAbs]? with
      | some x => pure x
      | none => throw .indexError
    else throw .indexError
  else
    match xs[k.toNat]? with
    | some x => pure x
    | none => throw .indexError

/-- number of mandatory columns, ttp/ttp.py 2252-2256: `columns(n)` between 1 and the number of headings. Attributes
that come out of a `chain` are not looked at. Simplification: `TypeError` for numbers of other types. -/
def columnsOf (n : Nat) : List FnCall → Int → PyM Int
  | [], c => pure c
  | f :: fs, c =>
    if f.name = c!"columns" then
      match f.args with
      | .int k :: _ => columnsOf n fs (min (max 1 k) n)
      | .str s :: _ =>
        match intOfStr s with
        | some k => columnsOf n fs (min (max 1 k) n)
        | none => throw .valueError
      | [] => throw .indexError
      | _ => throw .typeError
    else columnsOf n fs c

/-- `row_re`, ttp/ttp.py 2262-2285: name and expression of every column -/
def headerRows (hs : List Str) (columns : Int) : PyM (List (Str × Re)) := do
  let m ← atIndex hs (columns - 1)
  let row := (sliceTo hs (columns - 1)).map (fun h => (strip h, dots h.length)) ++ [(strip m, .seq (.cls .dot) (upTo (m.length - 1)))] ++
    (sliceFrom hs columns).map (fun h => (strip h, upTo h.length))
  let l ← atIndex hs (-1)
  pure (row.dropLast ++ [(strip l, if columns ≥ hs.length then Re.plus true (.cls .dot) else .star true (.cls .dot))])

/-- `\n(?P<..>..)(?P<..>..)(?=\n|\r\n)`, ttp/ttp.py 2287 -/
def headerRe (row : List (Str × Re)) : Re :=
  .seq (.cls (.lit '\n')) (.seq (Re.seqs (row.map (fun c => .cap c.1 c.2))) (.look (.alt (Re.lits c!"\n") (Re.lits c!"\r\n"))))

/-- names of groups `re.compile` accepts: identifiers, each once. Simplification: a heading with `>` inside is refused here, while the
text of the code can still be an expression with a group of another name (`a>b` gives `(?P<a>b>.*)`). -/
def groupNamesOk (names : List Str) : Bool :=
  decide names.Nodup && names.all (fun n => match n with
    | [] => false
    | c :: _ => !isDigit c && n.all isWord)

/-- tabs as four blanks, ttp/ttp.py 2258-2260 -/
def expandTabs (s : Str) : Str := s.flatMap (fun c => if c = '\t' then c!"    " else [c])

/-- indent of the line of headings, ttp/ttp.py 2261 -/
def headingIndent (s : Str) : Nat := (expandTabs s).length - (lstrip (expandTabs s)).length

/-- text of a line before its first variable, ttp/ttp.py 2247-2248 -/
def textBefore : List (Elem Str) → Str
  | .ch c :: es => c :: textBefore es
  | _ => []

end TTP
