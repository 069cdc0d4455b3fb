import Verif.Model.Match
/-!
# Lookups of addresses in geoip2 databases

Model of ttp/lookup/geoip2.py and ttp/match/geoip_lookup.py. The library geoip2 is a parameter: opening a file gives a reader or fails,
and a reader gives the attributes of an answer or raises.
-/

namespace TTP
open Py

namespace Geo

/-- the three kinds of databases -/
inductive DbKind where
  | city | asn | country
deriving DecidableEq

/-- the name of a kind, in small letters -/
def DbKind.name : DbKind → Str
  | .city => c!"city"
  | .asn => c!"asn"
  | .country => c!"country"

/-- An answer: the values of its attributes, by their name in the code; `none` where reading one raises. `names.get("en", "")` counts
as one attribute. -/
abbrev Resp := Str → Option Val

/-- A reader of a database: `country(address)`, `city(address)`, `asn(address)`; `none` where the call raises. -/
abbrev Reader := DbKind → Str → Option Resp

/-- what is in the lookup tables: dictionaries, readers, `None`, other values -/
inductive Node where
  | dict (d : List (Str × Node))
  | reader (r : Reader)
  | none
  | other (v : Val)

/-- the databases of a tag, ttp/lookup/geoip2.py 37: each kind `None` at first -/
def start : Dict Str Node := [(c!"city", .none), (c!"asn", .none), (c!"country", .none)]

/-- one entry of the tag, ttp/lookup/geoip2.py 40-49 -/
def loadOne (openDb : Str → Option Reader) (ret : Dict Str Node) (e : Str × Str) : Dict Str Node :=
  if Dict.has ret (lower e.1) then
    match openDb e.2 with
    | some r => Dict.set (Dict.erase ret (lower e.1)) e.1 (.reader r)
    | none => Dict.erase ret (lower e.1)
  else ret

/-- `geoip2_db_loader`, ttp/lookup/geoip2.py 17-50, with the library installed or not -/
def loadDbs (libs : Bool) (openDb : Str → Option Reader) (tag : Dict Str Str) : Dict Str Node :=
  if libs then tag.foldl (loadOne openDb) start else start

/-- `lookup_data.get(i, {})`, ttp/match/geoip_lookup.py 11: only dictionaries have `get` -/
def getNode : Node → Str → PyM Node
  | .dict d, i => pure ((Dict.get? d i).getD (.dict []))
  | .other (.dict d), i => pure (((Dict.get? d (.s i)).map Node.other).getD (.dict []))
  | _, _ => throw .attributeError

/-- the walk along the path, ttp/match/geoip_lookup.py 10-11 -/
def walk : Node → List Str → PyM Node
  | n, [] => pure n
  | n, i :: is => do
    let n' ← getNode n i
    walk n' is

/-- `not lookup_data` is false -/
def Node.truthy : Node → Bool
  | .dict d => !d.isEmpty
  | .reader _ => true
  | .none => false
  | .other v => v.truthy

/-- the fields of the result and the attributes they are made of, ttp/match/geoip_lookup.py 20-26, 37-49, 59-63 -/
def fields : DbKind → List (Str × Str)
  | .country => [(c!"continent", c!"continent.names.en"), (c!"continent_code", c!"continent.code"),
      (c!"country_iso_code", c!"country.iso_code"), (c!"country", c!"country.names.en"), (c!"network", c!"traits.network.with_prefixlen")]
  | .city => [(c!"city", c!"city.name"), (c!"continent", c!"continent.names.en"), (c!"country_iso_code", c!"country.iso_code"),
      (c!"country", c!"country.names.en"), (c!"latitude", c!"location.latitude"), (c!"longitude", c!"location.longitude"),
      (c!"accuracy_radius", c!"location.accuracy_radius"), (c!"postal_code", c!"postal.code"),
      (c!"state", c!"subdivisions.most_specific.name"), (c!"state_iso_code", c!"subdivisions.most_specific.iso_code"),
      (c!"network", c!"traits.network.with_prefixlen")]
  | .asn => [(c!"ASN", c!"autonomous_system_number"), (c!"organization", c!"autonomous_system_organization"),
      (c!"network", c!"network.with_prefixlen")]

/-- the dictionary of an answer, ttp/match/geoip_lookup.py 20-26, 37-49, 59-63: `none` if an attribute raises -/
def build (resp : Resp) : List (Str × Str) → Option (List (Key × Val))
  | [] => some []
  | (f, a) :: rest => do
    let v ← resp a
    let d ← build resp rest
    pure ((.s f, v) :: d)

/-- the kind that the last name of the path stands for, ttp/match/geoip_lookup.py 16, 34, 57 -/
def kindOf (n : Str) : Option DbKind :=
  if lower n = c!"country" then some .country else if lower n = c!"city" then some .city else if lower n = c!"asn" then some .asn else none

/-- the inquiry, ttp/match/geoip_lookup.py 17-70: all exceptions are caught, only readers have the methods -/
def inquire (k : DbKind) (data : Str) : Node → Option (List (Key × Val))
  | .reader r => (r k data).bind (fun resp => build resp (fields k))
  | _ => none

/-- the result, ttp/match/geoip_lookup.py 72-74 -/
def answer (data addField : Str) : Option (List (Key × Val)) → Val × Flag
  | some d => (.str data, .newField [(.s addField, .dict d)])
  | none => (.str data, .nothing)

/-- `geoip_lookup(data, db_name, add_field)`, ttp/match/geoip_lookup.py 6-74 -/
def lookup (lookups : Dict Str Node) (data dbName addField : Str) : PyM (Val × Flag) := do
  let path := (splitC '.' dbName).map strip
  let n ← walk (.dict lookups) path
  if n.truthy then pure (answer data addField ((kindOf (path.getLast?.getD [])).bind (fun k => inquire k data n)))
  else pure (.str data, .nothing)

end Geo
end TTP
