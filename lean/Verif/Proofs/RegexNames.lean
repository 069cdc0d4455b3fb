import Verif.Proofs.Template2
/-! # Lemmas: names of the groups of a line -/

namespace TTP
open Py Re ReText

theorem names_lits (t : Str) : names (Re.lits t) = [] := by
  induction t with
  | nil => rfl
  | cons c t ih => simpa [Re.lits, names] using ih

theorem names_elems (exact exactSp : Bool) (k : Kind) (es : List (Elem VarInfo)) :
    names (elemsRe exact exactSp k es) = (elemVars es).flatMap (fun v => names (varRe v)) := by
  induction es generalizing k with
  | nil => cases k <;> rfl
  | cons e es ih =>
    cases e with
    | ch c =>
      rw [elemsRe.eq_def]; dsimp only
      split
      · split
        · rw [ih]; rfl
        · show names blanksRe ++ names _ = _
          rw [ih]; rfl
      · split
        · split
          · rw [ih]; rfl
          · show names (Re.plus true (.cls .digit)) ++ names _ = _
            rw [ih]; rfl
        · show [] ++ names _ = _
          rw [ih]; rfl
    | var v =>
      rw [elemsRe.eq_def]; dsimp only
      show names (varRe v) ++ names _ = _
      rw [ih]; rfl

theorem names_line (exact exactSp : Bool) (indent : Str) (es : List (Elem VarInfo)) :
    names (lineRe exact exactSp indent es) = (elemVars (cutElems exactSp es)).flatMap (fun v => names (varRe v)) := by
  unfold lineRe
  simp only [names, names_lits, tailRe, List.nil_append, List.append_nil]
  exact names_elems ..

end TTP
