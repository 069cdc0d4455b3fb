import Verif.Model.Lazy
/-!
# Specification vocabulary for the functions of several `ttp` objects
-/

namespace Spec
open Py TTP

/-- In templates the function `f` of the file goes by the name `n`: the name that `_name_map_` gives it, otherwise its own. -/
def GoesBy (p : PyFile) (f n : Str) : Prop := f ∈ p.funs ∧ ((f, n) ∈ p.map ∨ (∀ m, (f, m) ∉ p.map) ∧ n = f)

/-- Files that do not get in each other's way: no path twice, no name for two functions of files in directories of the same name,
no function renamed twice. -/
structure CleanFiles (files : List PyFile) : Prop where
  maps : ∀ p ∈ files, (p.map.map Prod.fst).Nodup
  names : ∀ p ∈ files, ∀ q ∈ files, ∀ f g n, p.dir = q.dir → GoesBy p f n → GoesBy q g n → p = q ∧ f = g
  paths : ∀ p ∈ files, ∀ q ∈ files, p.dir = q.dir → p.mod = q.mod → p = q

/-- the user has added a function under the name to object `i` -/
def HasAdded {U : Type} (h : List (FnOp U)) (i : Nat) (scope name : Str) : Prop := ∃ u, FnOp.add i scope name u ∈ h

/-- Object `i` has imported the file: one of the names of the file was called in it that the user had not taken before. -/
def HasRead {U : Type} (h : List (FnOp U)) (i : Nat) (p : PyFile) : Prop :=
  ∃ h1 f n h2, h = h1 ++ FnOp.call i p.dir n :: h2 ∧ GoesBy p f n ∧ ¬ HasAdded h1 i p.dir n

/-- the last function that the user added under the name to object `i` is `u`, and `h1` is what happened before that -/
def LastAdded {U : Type} (h : List (FnOp U)) (i : Nat) (scope name : Str) (h1 : List (FnOp U)) (u : U) : Prop :=
  ∃ h2, h = h1 ++ FnOp.add i scope name u :: h2 ∧ ¬ HasAdded h2 i scope name

/-- Object `j` was the last to import the file: it imported the file at some point of the history, and no object imported it for
the first time after that. -/
def LastReader {U : Type} (h : List (FnOp U)) (j : Nat) (p : PyFile) : Prop :=
  ∃ h1 n h2, h = h1 ++ FnOp.call j p.dir n :: h2 ∧ ¬ HasRead h1 j p ∧ HasRead (h1 ++ [FnOp.call j p.dir n]) j p ∧
    ∀ k, HasRead h k p → HasRead (h1 ++ [FnOp.call j p.dir n]) k p

end Spec
