import Verif.Spec.MatchStr
import Verif.Spec.Ip
import Verif.Spec.Group
/-!
# Specification: lookups, addresses and validation of records
-/

namespace Spec
open Py

/-- What a lookup of the variable `key` in the table `t` makes of the record: nothing if the variable is not in the record or its text not in the
table; else the value replaces that of the variable, becomes the field `add_field`, or (`update=True`, the value being a dictionary) is joined to
the record. `extra` are the further arguments. -/
inductive Looked (t : Dict Key Val) (key : Str) : Dict Str Val → Dict Key Val → Dict Key Val → Prop
  | absent {extra d} : valueOf d key = none → Looked t key extra d d
  | unknown {extra d x} : valueOf d key = some (.str x) → valueOf t x = none → Looked t key extra d d
  | replace {d x v} : valueOf d key = some (.str x) → valueOf t x = some v → Looked t key [] d (Dict.set d (.s key) v)
  | field {d x v f} : valueOf d key = some (.str x) → valueOf t x = some v → f ≠ [] →
      Looked t key [(c!"add_field", .str f)] d (Dict.set d (.s f) v)
  | update {d x fs} : valueOf d key = some (.str x) → valueOf t x = some (.dict fs) → Looked t key [(c!"update", .bool true)] d (Dict.update d fs)

/-- the further arguments a lookup may have -/
def LookupExtra (extra : Dict Str Val) : Prop :=
  extra = [] ∨ (∃ f : Str, f ≠ [] ∧ extra = [(c!"add_field", .str f)]) ∨ extra = [(c!"update", .bool true)]

end Spec
