import Verif.Py.Str
/-!
# Specification vocabulary: result trees

No definition here depends on the model. A results tree is a Python value. `At ks t x` says that following the keys
`ks` from `t` one reaches `x`, where a list is entered through its last item ("the most recent record").
-/

namespace Spec
open Py

/-- The key a path item stands for: its name; with the option `dynamic_path_key_to_int` a name of digits stands for the
number it denotes. -/
def pathKey (toInt : Bool) (name : Str) : Key :=
  if toInt = true ∧ isdigitS name = true then .i (natOfDigits name) else .s name

/-- Two lists have the same length and the items at the same place are related. -/
inductive All2 {α β : Type} (r : α → β → Prop) : List α → List β → Prop
  | nil : All2 r [] []
  | cons {a : α} {b : β} {as : List α} {bs : List β} : r a b → All2 r as bs → All2 r (a :: as) (b :: bs)

/-- Following keys `ks` from the tree reaches the value. Lists on the way are entered through their last item. -/
inductive At : List Key → Val → Val → Prop
  | here (v : Val) : At [] v v
  | key {k : Key} {ks : List Key} {d : Dict Key Val} {w x : Val} :
      Dict.get? d k = some w → At ks w x → At (k :: ks) (.dict d) x
  | last {k : Key} {ks : List Key} {xs : List Val} {d : Dict Key Val} {x : Val} :
      xs.getLast? = some (.dict d) → At (k :: ks) (.dict d) x → At (k :: ks) (.list xs) x

/-- The keys lead to a place where nothing is yet: a dictionary without the next key, or an empty list. -/
inductive Absent : List Key → Val → Prop
  | missing {k : Key} {ks : List Key} {d : Dict Key Val} : Dict.get? d k = none → Absent (k :: ks) (.dict d)
  | key {k : Key} {ks : List Key} {d : Dict Key Val} {w : Val} :
      Dict.get? d k = some w → Absent ks w → Absent (k :: ks) (.dict d)
  | empty {k : Key} {ks : List Key} : Absent (k :: ks) (.list [])
  | last {k : Key} {ks : List Key} {xs : List Val} {d : Dict Key Val} :
      xs.getLast? = some (.dict d) → Absent (k :: ks) (.dict d) → Absent (k :: ks) (.list xs)

/-- neither a dictionary nor a list -/
def IsScalar : Val → Prop
  | .dict _ => False
  | .list _ => False
  | _ => True

/-- The way is blocked: the keys lead to a scalar. -/
inductive Blocked : List Key → Val → Prop
  | here {ks : List Key} {v : Val} : IsScalar v → Blocked ks v
  | key {k : Key} {ks : List Key} {d : Dict Key Val} {w : Val} :
      Dict.get? d k = some w → Blocked ks w → Blocked (k :: ks) (.dict d)
  | last {k : Key} {ks : List Key} {xs : List Val} {y : Val} :
      xs.getLast? = some y → Blocked (k :: ks) y → Blocked (k :: ks) (.list xs)

/-- One step of an address: dictionary key or list index. -/
inductive Sel where
  | key (k : Key)
  | idx (i : Nat)
  deriving DecidableEq, Repr

/-- The value at an exact address. -/
def get : List Sel → Val → Option Val
  | [], v => some v
  | .key k :: a, .dict d => (Dict.get? d k).bind (get a)
  | .idx i :: a, .list xs => (xs[i]?).bind (get a)
  | _, _ => none

/-- The keys of an address. -/
def keysOf : List Sel → List Key
  | [] => []
  | .key k :: a => k :: keysOf a
  | .idx _ :: a => keysOf a

/-- Two key sequences part: neither is the beginning of the other. -/
def Diverge (a b : List Key) : Prop := ¬ a <+: b ∧ ¬ b <+: a

mutual
/-- no list is an item of a list -/
def NoNested : Val → Prop
  | .dict kvs => NoNestedD kvs
  | .list xs => NoNestedL xs
  | _ => True
def NoNestedL : List Val → Prop
  | [] => True
  | x :: xs => (∀ ys, x ≠ .list ys) ∧ NoNested x ∧ NoNestedL xs
def NoNestedD : List (Key × Val) → Prop
  | [] => True
  | (_, v) :: kvs => NoNested v ∧ NoNestedD kvs
end

end Spec

namespace Spec
open Py

/-- Value below nested dictionaries, by keys only. -/
def dget (ks : List Key) (v : Val) : Option Val := get (ks.map Sel.key) v

/-- The record says nothing about the key sequence. -/
inductive Unmentioned : List Key → Dict Key Val → Prop
  | missing {k : Key} {ks : List Key} {d : Dict Key Val} : Dict.get? d k = none → Unmentioned (k :: ks) d
  | deeper {k : Key} {ks : List Key} {d nd : Dict Key Val} :
      Dict.get? d k = some (.dict nd) → Unmentioned ks nd → Unmentioned (k :: ks) d

/-- not a dictionary -/
def NotDict : Val → Prop
  | .dict _ => False
  | _ => True

/-- `e'` is `e` with the record `r` merged in, recursively: what `r` says holds, the rest is as before. -/
structure Merged (e r e' : Dict Key Val) : Prop where
  new : ∀ ks v, dget ks (.dict r) = some v → NotDict v → dget ks (.dict e') = some v
  old : ∀ ks, Unmentioned ks r → dget ks (.dict e') = dget ks (.dict e)

mutual
/-- every dictionary inside of the value has unique keys, as every Python dictionary has -/
def DeepWF : Val → Prop
  | .dict kvs => (kvs.map Prod.fst).Nodup ∧ DeepWFD kvs
  | .list xs => DeepWFL xs
  | _ => True
def DeepWFL : List Val → Prop
  | [] => True
  | x :: xs => DeepWF x ∧ DeepWFL xs
def DeepWFD : List (Key × Val) → Prop
  | [] => True
  | (_, v) :: kvs => DeepWF v ∧ DeepWFD kvs
end

end Spec

namespace Spec
open Py

mutual
/-- every string in the value (not counting dictionary keys) has the property -/
def AllStr (P : Str → Prop) : Val → Prop
  | .str s => P s
  | .list xs => AllStrL P xs
  | .dict kvs => AllStrD P kvs
  | _ => True
def AllStrL (P : Str → Prop) : List Val → Prop
  | [] => True
  | x :: xs => AllStr P x ∧ AllStrL P xs
def AllStrD (P : Str → Prop) : List (Key × Val) → Prop
  | [] => True
  | (_, v) :: kvs => AllStr P v ∧ AllStrD P kvs
end

end Spec
