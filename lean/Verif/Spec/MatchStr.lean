import Verif.Py.Regex
/-!
# Specification vocabulary: replacing text, tables

Independent of the model of the functions.
-/

namespace Spec
open Py

/-- `t` is `s` with every occurrence of `old` replaced by `new`: from left to right, the next occurrence is looked for after the
one before. -/
inductive Replaced (old new : Str) : Str → Str → Prop where
  | none (s : Str) : ¬ old <:+: s → Replaced old new s s
  | next (a b t : Str) : (∀ k, k < a.length → ¬ old <+: (a ++ old ++ b).drop k) → Replaced old new b t →
      Replaced old new (a ++ old ++ b) (a ++ new ++ t)

/-- `t` is `s` after a list of replacements `(old, new)`, one after the other -/
inductive ReplacedSeq : List (Str × Str) → Str → Str → Prop where
  | nil (s : Str) : ReplacedSeq [] s s
  | cons (old new s t u : Str) (rest : List (Str × Str)) : Replaced old new s t → ReplacedSeq rest t u →
      ReplacedSeq ((old, new) :: rest) s u

/-- the replacements a list variable stands for: its strings, each by `new` -/
def listPairs (new : Str) (vs : List Val) : List (Str × Str) :=
  vs.flatMap (fun v => match v with | .str old => [(old, new)] | _ => [])

/-- the replacements a dictionary variable stands for: its keys are the new texts, its values the old ones -/
def dictPairs (d : List (Str × Val)) : List (Str × Str) :=
  d.flatMap (fun kv => match kv.2 with
    | .list vs => listPairs kv.1 vs
    | .str old => [(old, kv.1)]
    | _ => [])

/-- an entry of a dictionary whose key is a string -/
def strEntry : Key × Val → Option (Str × Val)
  | (.s k, v) => some (k, v)
  | (.i _, _) => none

/-- What one argument of `replaceall` stands for: a name of a template variable stands for the texts in it, any other text for
itself. -/
def argPairs (vars : Dict Str Val) (new old : Str) : List (Str × Str) :=
  match Dict.get? vars old with
  | none => [(old, new)]
  | some (.list vs) => listPairs new vs
  | some (.dict d) => dictPairs (d.filterMap strEntry)
  | some _ => []

/-- the first match of a regular expression at the beginning of a text: the text of the match -/
def firstAt (r : Re) (s : Str) : Option Str := (Re.run r s).head?.map (·.1)

/-- `t` is `s` with the leftmost matches of `r` replaced by `new`, at most `n` of them -/
inductive ReReplaced (r : Re) (new : Str) : Option Nat → Str → Str → Prop where
  | limit (s : Str) : ReReplaced r new (some 0) s s
  | none (n : Option Nat) (s : Str) : (∀ k, k ≤ s.length → firstAt r (s.drop k) = none) → ReReplaced r new n s s
  | next (n : Option Nat) (a m b t : Str) : n ≠ some 0 →
      (∀ k, k < a.length → firstAt r ((a ++ m ++ b).drop k) = none) → firstAt r (m ++ b) = some m →
      ReReplaced r new (n.map (· - 1)) b t → ReReplaced r new n (a ++ m ++ b) (a ++ new ++ t)

/-- the value below the keys of a path, in nested dictionaries -/
def under : Val → List Str → Option Val
  | v, [] => some v
  | .dict d, k :: ks => match Dict.get? d (.s k) with
    | some v => under v ks
    | none => none
  | _, _ :: _ => none

/-- a value of a template variable if there is one with that name, the text itself otherwise -/
def varValue (vars : Dict Str Val) (s : Str) : Val :=
  match Dict.get? vars s with
  | some v => v
  | none => .str s

/-- A glob pattern: `*` is any text, `?` any character. -/
inductive Globs : Str → Str → Prop where
  | nil : Globs [] []
  | star (a s p : Str) : Globs p s → Globs ('*' :: p) (a ++ s)
  | one (c : Char) (s p : Str) : Globs p s → Globs ('?' :: p) (c :: s)
  | char (c : Char) (s p : Str) : c ≠ '*' → c ≠ '?' → Globs p s → Globs (c :: p) (c :: s)

end Spec
