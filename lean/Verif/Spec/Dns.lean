import Verif.Model.Dns
/-!
# Specification vocabulary for name lookups
-/

namespace Spec
open Py TTP TTP.Dns

/-- the call names the servers `l`: in a list, or in a text separated by commas (spaces around them do not count) -/
def NamesServers (c : Call) (l : List Str) : Prop :=
  (c.servers = .list l ∧ l ≠ []) ∨
  ∃ parts : List Str, c.servers = .text (join [','] parts) ∧ join [','] parts ≠ [] ∧ parts ≠ [] ∧ (∀ p ∈ parts, ',' ∉ p) ∧ l = parts.map strip

/-- the call names no servers -/
def NamesNone (c : Call) : Prop := c.servers = .missing ∨ c.servers = .text [] ∨ c.servers = .list []

/-- a list from the smallest text to the largest -/
def Ascending (l : List Str) : Prop := l.Pairwise (fun a b => ¬ b < a)

/-- The servers of a call as they are asked: those named; `dns` sorts them, `rdns` does not. -/
def AskedOf (way : Way) (l asked : List Str) : Prop :=
  match way with
  | .forward _ => asked.Perm l ∧ Ascending asked
  | .reverse => asked = l

/-- after the calls `h`, the call `c` gets no answer in time -/
def TimesOut (system : List Str) (h : List Call) (c : Call) : Prop :=
  ∃ q, asks (after system h) c = some q ∧ c.net q = .tooLate

/-- after the calls `h`, one of the calls `h2` gets no answer in time -/
def SomeTimeOut (system : List Str) (h h2 : List Call) : Prop := ∃ a c b, h2 = a ++ c :: b ∧ TimesOut system (h ++ a) c

/-- what the records of an answer become: all their texts, or the first without the dots at its end -/
def RecordsVal (way : Way) (rs : List Str) (v : Val) : Prop :=
  match way with
  | .forward _ => v = .list (rs.map .str)
  | .reverse => ∃ r rest name dots, rs = r :: rest ∧ r = name ++ List.replicate dots '.' ∧ name.getLast? ≠ some '.' ∧ v = .str name

/-- the value goes to a field of its own, if the call names one, otherwise it replaces the value of the variable -/
def GoesTo (c : Call) (v : Val) (r : Val × Flag) : Prop :=
  ((c.addField = none ∨ c.addField = some []) ∧ r = (v, .nothing)) ∨
  ∃ f, c.addField = some f ∧ f ≠ [] ∧ r = (.str c.data, .newField [(.s f, v)])

end Spec
