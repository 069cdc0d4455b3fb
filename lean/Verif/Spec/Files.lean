import Verif.Spec.Extend
/-!
# Specification: data given as paths

Which files a path names, and what can be seen of a parse. Of the model only the file system and the parser object are used.
-/

namespace Spec
open Py TTP

/-- The path names these files: itself, a file in the directory of templates, or all files of a directory in the order in which the
operating system lists them. -/
inductive NamesFiles (w : World) : Str → List Str → Prop
  | file {p : Str} : ¬ c!"ttp://" <+: p → w.isFile (p.take 5000) = true → NamesFiles w p [p]
  | shared {p d : Str} : ¬ c!"ttp://" <+: p → w.isFile (p.take 5000) = false → w.templatesDir = some d → d ≠ [] →
      w.isFile (d ++ '/' :: p.take 5000) = true → NamesFiles w p [d ++ '/' :: p.take 5000]
  | dir {p : Str} : ¬ c!"ttp://" <+: p → w.isFile (p.take 5000) = false →
      (∀ d, w.templatesDir = some d → d = [] ∨ w.isFile (d ++ '/' :: p.take 5000) = false) → w.isDir (p.take 5000) = true →
      NamesFiles w p (((w.listdir p).map (fun f => p ++ '/' :: f)).filter (fun f => w.isFile f))

/-- what a parse shows: the names and results of the templates and the global variables, or the exception -/
def seen (r : PyM TTPObj) : PyM (List (Str × Val) × Dict Str Val) :=
  match r with
  | .ok o => .ok (o.templates.map (fun t => (t.name, t.results)), o.gvars)
  | .error e => .error e

/-- no variable of the templates is computed from the name of the data (as `getfilename` does) -/
def NameBlind (E : Engine) (o : TTPObj) : Prop :=
  ∀ t ∈ o.templates, ∀ q ∈ t.varFns, ∀ v a b, E.varFns q.2 v a = E.varFns q.2 v b

/-- no template has data for the input `n` yet -/
def NoData (o : TTPObj) (n : Str) : Prop := ∀ t ∈ o.templates, Dict.get? t.inputs n = none

/-- `list(set(..))` of sorted group indexes that occur twice is the sorted list -/
def Resorts (E : Engine) (o : TTPObj) : Prop :=
  ∀ t ∈ o.templates, ∀ l : List Nat, l.Pairwise (· < ·) → (∀ i ∈ l, i ∈ t.groups.map (·.index)) → E.setOrder (l ++ l) = l

end Spec
