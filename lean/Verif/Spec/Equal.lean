import Verif.Spec.Tree
/-!
# Specification: equal values
-/

namespace Spec
open Py

/-- Python's `==` on values: numbers and truth values by their value, texts by their characters, lists item by item, dictionaries key by key,
whatever the order of the keys. Values of different kinds are not equal, but `True` is 1 and `False` is 0. (Floats: same text.) -/
inductive SameVal : Val → Val → Prop
  | none : SameVal .none .none
  | bool (b : Bool) : SameVal (.bool b) (.bool b)
  | int (n : Int) : SameVal (.int n) (.int n)
  | true_one : SameVal (.bool true) (.int 1)
  | one_true : SameVal (.int 1) (.bool true)
  | false_zero : SameVal (.bool false) (.int 0)
  | zero_false : SameVal (.int 0) (.bool false)
  | flt (t : Str) : SameVal (.flt t) (.flt t)
  | str (s : Str) : SameVal (.str s) (.str s)
  | list {a b : List Val} : a.length = b.length → (∀ (i : Nat) (x y : Val), a[i]? = some x → b[i]? = some y → SameVal x y) → SameVal (.list a) (.list b)
  | dict {a b : Dict Key Val} : (∀ k : Key, (∃ x : Val, Dict.get? a k = some x) ↔ (∃ y : Val, Dict.get? b k = some y)) →
      (∀ (k : Key) (x y : Val), Dict.get? a k = some x → Dict.get? b k = some y → SameVal x y) → SameVal (.dict a) (.dict b)

end Spec
