import Verif.Model.Geo
/-!
# Specification vocabulary for geoip2 databases
-/

namespace Spec
open Py TTP TTP.Geo

/-- a tag does not name the same database twice, with letters of different size -/
def OneName (tag : Dict Str Str) : Prop := tag.Pairwise (fun a b => lower a.1 ≠ lower b.1)

/-- the tag names the database `name` of kind `k`, and its file can be opened -/
def Opened (openDb : Str → Option Reader) (tag : Dict Str Str) (k : DbKind) (name : Str) (r : Reader) : Prop :=
  ∃ path, (name, path) ∈ tag ∧ lower name = k.name ∧ openDb path = some r

/-- The record of an address: every field of the kind, in order, with its attribute. -/
def GeoRecord (k : DbKind) (resp : Resp) (d : List (Key × Val)) : Prop :=
  d.map Prod.fst = (fields k).map (fun p => Key.s p.1) ∧ ∀ (i : Nat) (f a : Str), (fields k)[i]? = some (f, a) → ∃ v, resp a = some v ∧ d[i]? = some (Key.s f, v)

/-- the record of the address `data` in the database `name` of the tag -/
def GeoFound (openDb : Str → Option Reader) (tag : Dict Str Str) (name data : Str) (d : List (Key × Val)) : Prop :=
  ∃ k rd resp, Opened openDb tag k name rd ∧ rd k data = some resp ∧ GeoRecord k resp d

end Spec
