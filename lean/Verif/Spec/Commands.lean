import Verif.Spec.Hostname
/-!
# Specification: variable functions, input functions, output of commands
-/

namespace Spec
open Py TTP

/-- byte order marks taken away from the beginning of a name -/
def Unmarked (h v : Str) : Prop :=
  ∃ m1 m2 m3, h = m1 ++ (m2 ++ (m3 ++ v)) ∧
    (∀ c ∈ m1, c ∈ ['ï', '»', '¿']) ∧ (∀ c ∈ (m2 ++ (m3 ++ v)).head?, c ∉ ['ï', '»', '¿']) ∧
    (∀ c ∈ m2, c ∈ ['þ', 'ÿ']) ∧ (∀ c ∈ (m3 ++ v).head?, c ∉ ['þ', 'ÿ']) ∧
    (∀ c ∈ m3, c = '\ufeff') ∧ (∀ c ∈ v.head?, c ≠ '\ufeff')

/-- input functions one after the other; a function that answers `False` is the last one, its data are kept -/
inductive Piped (call : FnCall → Val → PyM (Val × Option Bool)) : List FnCall → Val → Val → Prop where
  | done (v) : Piped call [] v v
  | stop (f fs v v') : call f v = .ok (v', some false) → Piped call (f :: fs) v v'
  | next (f fs v v' v'' flag) : call f v = .ok (v', flag) → flag ≠ some false → Piped call fs v' v'' → Piped call (f :: fs) v v''

/-- the output of a command ends here: at the next prompt or at the end of the text -/
def AtEnd (host rest : Str) : Prop := (∃ c r, (c = '#' ∨ c = '>') ∧ rest = host ++ c :: r) ∨ rest = [] ∨ rest = c!"\n"

/-- prompt and command -/
def Typed (host cmd a : Str) : Prop :=
  ∃ c n m, (c = '#' ∨ c = '>') ∧ a = host ++ c :: (List.replicate n ' ' ++ (cmd ++ (List.replicate m ' ' ++ c!"\n")))

/-- prompt, command and output at the beginning of a text -/
def BlockAt (host cmd s b : Str) : Prop :=
  ∃ a out rest, b = a ++ out ∧ s = a ++ (out ++ rest) ∧ Typed host cmd a ∧ out ≠ [] ∧ AtEnd host rest ∧
    ∀ o1 o2, out = o1 ++ o2 → o1 ≠ [] → o2 ≠ [] → ¬ AtEnd host (o2 ++ rest)

/-- the first such block of a text -/
def CmdBlock (host cmd s b : Str) : Prop :=
  ∃ pre s', s = pre ++ s' ∧ BlockAt host cmd s' b ∧ ∀ p1 p2, pre = p1 ++ p2 → p2 ≠ [] → ∀ b', ¬ BlockAt host cmd (p2 ++ s') b'

/-- a command: no blank at either end -/
def Command (cmd : Str) : Prop := cmd ≠ [] ∧ cmd.head? ≠ some ' ' ∧ cmd.getLast? ≠ some ' '

/-- the blocks of the commands, in the order of the commands -/
inductive Blocks (host s : Str) : List Str → List Str → Prop where
  | nil : Blocks host s [] []
  | found (c cs b bs) : CmdBlock host c s b → Blocks host s cs bs → Blocks host s (c :: cs) (b :: bs)
  | missing (c cs bs) : (∀ b, ¬ CmdBlock host c s b) → Blocks host s cs bs → Blocks host s (c :: cs) bs

end Spec
