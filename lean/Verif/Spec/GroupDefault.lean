import Verif.Spec.RichFns
import Verif.Spec.Group
/-!
# Specification: the attribute `default` of a group

`<group name="..." default="x">` is the same as `default("x")` at the first place of every variable, before its own functions.
-/

namespace Spec
open Py TTP

/-- the call `default(x)` -/
def defaultCall (x : Val) : FnCall := ⟨c!"default", [x], []⟩

/-- Pieces of a line with `default(x)` written at the variables whose names were not `seen` before; the last argument are the names seen
afterwards. What stands between the braces of such a variable can be written in any way that means it. -/
inductive PiecesDefaulted (x : Val) : List Str → List RPiece → List RPiece → List Str → Prop
  | nil {seen : List Str} : PiecesDefaulted x seen [] [] seen
  | text {seen seen' : List Str} {ps ps' : List RPiece} {t : Str} : PiecesDefaulted x seen ps ps' seen' →
      PiecesDefaulted x seen (.text t :: ps) (.text t :: ps') seen'
  | ign {seen seen' : List Str} {ps ps' : List RPiece} {e : Option Str} {b : Str} : PiecesDefaulted x seen ps ps' seen' →
      PiecesDefaulted x seen (.ign e b :: ps) (.ign e b :: ps') seen'
  | again {seen seen' : List Str} {ps ps' : List RPiece} {v : RVar} {b : Str} : v.name ∈ seen → PiecesDefaulted x seen ps ps' seen' →
      PiecesDefaulted x seen (.var v b :: ps) (.var v b :: ps') seen'
  | first {seen seen' : List Str} {ps ps' : List RPiece} {v : RVar} {b b' : Str} : v.name ∉ seen →
      PiecesDefaulted x (v.name :: seen) ps ps' seen' →
      PiecesDefaulted x seen (.var v b :: ps) (.var ⟨v.name, defaultCall x :: v.opts⟩ b' :: ps') seen'

/-- ... of all lines -/
inductive LinesDefaulted (x : Val) : List Str → List RLine → List RLine → Prop
  | nil {seen : List Str} : LinesDefaulted x seen [] []
  | cons {seen seen' : List Str} {l : RLine} {ps' : List RPiece} {ls ls' : List RLine} : PiecesDefaulted x seen l.pieces ps' seen' →
      LinesDefaulted x seen' ls ls' → LinesDefaulted x seen (l :: ls) (⟨l.indent, ps', l.trail⟩ :: ls')

end Spec
