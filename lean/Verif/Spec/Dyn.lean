import Verif.Spec.Machine
/-!
# Specification: group paths with placeholders

A path item as it is written in a group name (`Ethernet{{ port }}*`), and what it stands for.
-/

namespace Spec
open Py TTP

/-- A placeholder `{{ name }}` with its white space and the text after it. -/
structure Slot where
  before : Str
  name : Str
  after : Str
  post : Str

/-- A path item: text, possibly a placeholder, asterisks. -/
structure DItem where
  pre : Str
  slot : Option Slot
  stars : Nat

/-- the item as it is written -/
def DItem.source (i : DItem) : Str :=
  i.pre ++ (match i.slot with
    | none => []
    | some s => c!"{{" ++ s.before ++ s.name ++ s.after ++ c!"}}" ++ s.post) ++ List.replicate i.stars '*'

/-- white space around a name of word characters; after it no braces and no asterisk at the end -/
def Slot.OK (s : Slot) : Prop := (∀ c ∈ s.before, isSpace c = true) ∧ s.name ≠ [] ∧ (∀ c ∈ s.name, isWord c = true) ∧
  (∀ c ∈ s.after, isSpace c = true) ∧ '{' ∉ s.post ∧ '}' ∉ s.post ∧ s.post.getLast? ≠ some '*'

/-- no brace in the text before, no asterisk at the end of the text -/
def DItem.OK (i : DItem) : Prop :=
  '{' ∉ i.pre ∧ match i.slot with
    | none => i.pre.getLast? ≠ some '*'
    | some s => s.OK

/-- What is put for a placeholder: the value in the record, else the value used last, else the template variable. -/
def slotValue (vars used : Dict Str Val) (r : Dict Key Val) (n : Str) : Option Val :=
  ((Dict.get? r (.s n)).or (Dict.get? used n)).or (Dict.get? vars n)

/-- a value from the record is remembered -/
def remember (used : Dict Str Val) (r : Dict Key Val) (n : Str) : Dict Str Val :=
  match Dict.get? r (.s n) with
  | some v => Dict.set used n v
  | none => used

/-- Filling of the items in order: the values used last, what remains of the record, the path (`none`: a placeholder has no value). A
value from the record is remembered and taken out of the record. -/
def fillPath (vars : Dict Str Val) : List DItem → Dict Str Val → Dict Key Val → Dict Str Val × Dict Key Val × Option (List PItem)
  | [], used, r => (used, r, some [])
  | i :: is, used, r =>
    match i.slot with
    | none => ((fillPath vars is used r).1, (fillPath vars is used r).2.1, (fillPath vars is used r).2.2.map (⟨i.pre, i.stars⟩ :: ·))
    | some s =>
      match slotValue vars used r s.name with
      | none => (used, r, none)
      | some v =>
        let next := fillPath vars is (remember used r s.name) (Dict.erase r (.s s.name))
        (next.1, next.2.1, next.2.2.map (⟨i.pre ++ pyStr v ++ s.post, i.stars⟩ :: ·))

/-- Records saved one after the other, each at its own path; a record without path is not saved. -/
def saveEach (toInt : Bool) (vars : Dict Str Val) (items : List DItem) : List (Dict Key Val) → Dict Str Val → Val → PyM Val
  | [], _, R => pure R
  | r :: rs, used, R =>
    match fillPath vars items used r with
    | (used', r', some p) => save toInt false (.dict r') p R >>= saveEach toInt vars items rs used'
    | (used', _, none) => saveEach toInt vars items rs used' R

/-- the placeholders of the items -/
def slotNames (items : List DItem) : List Str := items.filterMap (fun i => i.slot.map (·.name))

/-- text that `re.sub` takes as it is: no backslash -/
def NoBackslash (s : Str) : Prop := '\\' ∉ s

/-- one record, or the list of them -/
def oneOrMany : List (Dict Key Val) → Val
  | [r] => .dict r
  | rs => .list (rs.map .dict)

/-- the records of one key -/
def ofKey (l : List (Str × Dict Key Val)) (k : Str) : List (Dict Key Val) := (l.filter (fun q => decide (q.1 = k))).map (·.2)

/-- A dictionary of records under their keys, in the order of the first record of each key: the record itself, or the list of the
records if there are several. -/
def keyed (l : List (Str × Dict Key Val)) : Dict Key Val :=
  (l.map (·.1)).eraseDups.map (fun k => (.s k, oneOrMany (ofKey l k)))

/-- a value below dictionaries with one key each -/
def nest : List Str → Val → Val
  | [], v => v
  | n :: ns, v => .dict [(.s n, nest ns v)]

end Spec

namespace Spec
open Py TTP

/-- the value is a text without backslash -/
def Plain (v : Val) : Prop := ∃ s, v = .str s ∧ NoBackslash s

/-- Values for placeholders that go into the path as they are: texts without backslash in the record and among the values used last,
template variables without backslash. -/
def TameIn (vars used : Dict Str Val) (r : Dict Key Val) (names : List Str) : Prop :=
  ∀ n ∈ names, (∀ v, Dict.get? r (.s n) = some v → Plain v) ∧ (∀ v, Dict.get? used n = some v → Plain v) ∧
    ∀ v, Dict.get? vars n = some v → NoBackslash (pyStr v)

end Spec
