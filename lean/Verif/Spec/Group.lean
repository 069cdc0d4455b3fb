import Verif.Py.Str
/-!
# Specification vocabulary: records
-/

namespace Spec
open Py

/-- value of a variable in a record -/
def valueOf (record : Dict Key Val) (name : Str) : Option Val := Dict.get? record (.s name)

/-- following the names from the value, through dictionaries only -/
def follow : List Str → Val → Option Val
  | [], v => some v
  | k :: ks, .dict d => (Dict.get? d (.s k)).bind (follow ks)
  | _ :: _, _ => none

/-- the parts of a dotted name -/
def parts (name : Str) : List Str := split ['.'] name

/-- the record with these variables and values -/
def asDict (kvs : List (Str × Val)) : Dict Key Val := kvs.map (fun kv => (Key.s kv.1, kv.2))

/-- no name is, part by part, the beginning of another -/
def PrefixFree (names : List Str) : Prop := ∀ a ∈ names, ∀ b ∈ names, a ≠ b → ¬ parts a <+: parts b

/-- a name of one level: no dots, no spaces around -/
def Simple (name : Str) : Prop := '.' ∉ name ∧ strip name = name

/-- what `to_int` makes of a single value: `ofStr` is `float()` of a text, `trunc` is `int()` of a float -/
inductive Numbered (ofStr : Str → Option Str) (trunc : Str → Option Int) : Val → Val → Prop
  | int (s : Str) (i : Int) (h : intOfStr s = some i) : Numbered ofStr trunc (.str s) (.int i)
  | float (s t : Str) (h1 : intOfStr s = none) (h2 : ofStr s = some t) : Numbered ofStr trunc (.str s) (.flt t)
  | text (s : Str) (h1 : intOfStr s = none) (h2 : ofStr s = none) : Numbered ofStr trunc (.str s) (.str s)
  | cut (t : Str) (i : Int) (h : trunc t = some i) : Numbered ofStr trunc (.flt t) (.int i)
  | keep (t : Str) (h : trunc t = none) : Numbered ofStr trunc (.flt t) (.flt t)
  | truth : Numbered ofStr trunc (.bool true) (.int 1)
  | untruth : Numbered ofStr trunc (.bool false) (.int 0)
  | same (v : Val) (h1 : ∀ s, v ≠ .str s) (h2 : ∀ t, v ≠ .flt t) (h3 : ∀ b, v ≠ .bool b) : Numbered ofStr trunc v v

end Spec
