import Verif.Model.Match
/-!
# Name lookups

Model of ttp/match/dns_lookups.py. The library dnspython is a parameter: what an inquiry gives is part of the call, because it may
differ every time. What the model keeps is the one resolver of the process and what is asked of it.
-/

namespace TTP
open Py

namespace Dns

/-- The resolver of the process, `dns_resolver_obj`, ttp/match/dns_lookups.py 6: name servers, seconds for one server, seconds for
the inquiry. -/
structure Resolver where
  servers : List Str
  timeout : Int
  lifetime : Int
deriving DecidableEq

/-- what is asked: the resolver as it is then, the name (an address for `rdns`), the kind of record -/
structure Inquiry where
  resolver : Resolver
  name : Str
  kind : Str
deriving DecidableEq

/-- what the library answers: the texts of the records, or an exception (`failed`: any but the three that the code catches, such as
`NoNameservers` or a name that is none) -/
inductive Answer where
  | records (rs : List Str)
  | noName
  | noAnswer
  | tooLate
  | failed
deriving DecidableEq

/-- the argument `servers`: missing, a text, a list -/
inductive Servers where
  | missing
  | text (s : Str)
  | list (l : List Str)
deriving DecidableEq

/-- the two functions `dns` and `rdns` -/
inductive Way where
  | forward (record : Str)
  | reverse
deriving DecidableEq

/-- One call in a template, with the answers of the network at that time; `isAddr` tells whether `dns.reversename.from_address`
takes the text. Timeouts are whole seconds, `add_field` is a text or missing. -/
structure Call where
  way : Way
  data : Str
  timeout : Int
  servers : Servers
  addField : Option Str
  net : Inquiry → Answer
  isAddr : Str → Bool

/-- insertion into a sorted list, for `sorted` -/
def insertStr (a : Str) : List Str → List Str
  | [] => [a]
  | b :: l => if b < a then b :: insertStr a l else a :: b :: l

/-- `sorted(servers)`, ttp/match/dns_lookups.py 16 -/
def sorted (l : List Str) : List Str := l.foldr insertStr []

/-- the servers of the argument, ttp/match/dns_lookups.py 11-15, 42-46; `none` for a missing or empty one -/
def given : Servers → Option (List Str)
  | .missing => none
  | .text s => if s = [] then none else some ((splitC ',' s).map strip)
  | .list l => if l = [] then none else some l

/-- the servers in the order in which they are set: sorted for `dns` only, ttp/match/dns_lookups.py 16, 47 -/
def order : Way → List Str → List Str
  | .forward _, l => sorted l
  | .reverse, l => l

/-- the resolver that a call asks, ttp/match/dns_lookups.py 11-17, 42-48 -/
def adjust (r : Resolver) (c : Call) : Resolver :=
  let servers := (given c.servers).elim r.servers (order c.way)
  ⟨servers, c.timeout, c.timeout * servers.length⟩

/-- what is asked -/
def inquiry (r : Resolver) (c : Call) : Inquiry :=
  ⟨adjust r c, c.data, match c.way with
    | .forward record => record
    | .reverse => c!"PTR"⟩

/-- the value of found records, ttp/match/dns_lookups.py 19, 50: all of them, or the first without dots at its end -/
def value : Way → List Str → PyM Val
  | .forward _, rs => pure (.list (rs.map .str))
  | .reverse, [] => throw .indexError
  | .reverse, r :: _ => pure (.str (rstripP (· == '.') r))

/-- the result, ttp/match/dns_lookups.py 20-23, 51-54 -/
def wrap (c : Call) (v : Val) : Val × Flag :=
  match c.addField with
  | some (x :: f) => (.str c.data, .newField [(.s (x :: f), v)])
  | _ => (v, .nothing)

/-- `rdns` turns the text into a name before the `try`, ttp/match/dns_lookups.py 49 -/
def badName (c : Call) : Bool :=
  match c.way with
  | .forward _ => false
  | .reverse => !c.isAddr c.data

/-- the resolver as made anew, ttp/match/dns_lookups.py 6, 31, 60: the servers of the system; its two times are set before every use -/
def fresh (system : List Str) : Resolver := ⟨system, 0, 0⟩

/-- what happens after the inquiry: the resolver, and the result, ttp/match/dns_lookups.py 18-32, 50-61 -/
def settle (system : List Str) (r : Resolver) (c : Call) : Answer → Resolver × PyM (Val × Flag)
  | .records rs => (r, (value c.way rs).map (wrap c))
  | .noName => (r, .ok (.str c.data, .nothing))
  | .noAnswer => (r, .ok (.str c.data, .nothing))
  | .tooLate => (fresh system, .ok (.str c.data, .nothing))
  | .failed => (r, .error .runtimeError)

/-- one call, ttp/match/dns_lookups.py 9-32, 35-61: the resolver afterwards, and the result -/
def call (system : List Str) (r : Resolver) (c : Call) : Resolver × PyM (Val × Flag) :=
  if badName c then (adjust r c, .error .valueError) else settle system (adjust r c) c (c.net (inquiry r c))

/-- what a call asks, if it comes that far -/
def asks (r : Resolver) (c : Call) : Option Inquiry := if badName c then none else some (inquiry r c)

/-- the resolver after a number of calls, in all objects and templates of the process, ttp/match/dns_lookups.py 6, 31, 60 -/
def after (system : List Str) (cs : List Call) : Resolver := cs.foldl (fun r c => (call system r c).1) (fresh system)

end Dns
end TTP
