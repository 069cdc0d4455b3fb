import Verif.Spec.Whole
import Verif.Spec.Nest
/-!
# Specification: what a template with nested groups makes of a text

Written without the loader, the line compiler, regular expressions, the search and the results machine. (Only the type of XML elements is
taken from the model.)
-/

namespace Spec
open Py

/-- A group of a template: its name, its lines, the blanks before the next tag, child groups, the white space after the closing tag. -/
inductive TGroup where
  | mk (name : Str) (lines : List TplLine) (pad : Str) (children : List TGroup) (tail : Str)

/-- its name -/
def TGroup.name : TGroup → Str
  | .mk n _ _ _ _ => n

mutual
/-- the element `<group name="...*">` with these lines, then the child groups -/
def TGroup.xml : TGroup → TTP.Xml
  | .mk n ls pad cs tail =>
    .mk c!"group" [(c!"name", n ++ c!"*")] (some ('\n' :: ((ls.map (fun l => l.source ++ c!"\n")).flatten ++ pad))) (xmls cs) (some tail)
/-- the elements of groups -/
def xmls : List TGroup → List TTP.Xml
  | [] => []
  | c :: cs => c.xml :: xmls cs
end

mutual
/-- A group as it can be written: an ordinary name, at least one line, plain lines, only white space between the tags, child groups with
different names. -/
def TGroup.OK : TGroup → Prop
  | .mk n ls pad cs tail => GroupName n ∧ ls ≠ [] ∧ (∀ l ∈ ls, l.OK) ∧ (∀ c ∈ pad, Blank c) ∧ (∀ c ∈ tail, isSpace c = true) ∧ groupsOK cs
/-- groups with different names -/
def groupsOK : List TGroup → Prop
  | [] => True
  | c :: cs => c.OK ∧ c.name ∉ cs.map TGroup.name ∧ groupsOK cs
end

mutual
/-- all groups of the tree with their lines; a group is called by the names from the top group down (after `p`) -/
def TGroup.listing (p : List Str) : TGroup → List (List Str × List TplLine)
  | .mk n ls _ cs _ => (p ++ [n], ls) :: listings (p ++ [n]) cs
/-- the same for many groups -/
def listings (p : List Str) : List TGroup → List (List Str × List TplLine)
  | [] => []
  | c :: cs => c.listing p ++ listings p cs
end

/-- How a text line is read: it fits exactly one line of one group (the group, the number of the line, the values), or none. -/
def ReadsIn (groups : List (List Str × List TplLine)) (t : Str) : Option (List Str × Nat × List (Str × Str)) → Prop
  | some (g, j, vals) => (∃ ls l, (g, ls) ∈ groups ∧ ls[j]? = some l ∧ l.Fits t vals) ∧
      ∀ g' ls i l v, (g', ls) ∈ groups → ls[i]? = some l → l.Fits t v → g' = g ∧ i = j
  | none => ∀ g ls, (g, ls) ∈ groups → ∀ l ∈ ls, ∀ v, ¬ l.Fits t v

/-- Which of the lines that were read are matches: a start of a child group only after its parent was found, an ordinary line only after
its group was found. `S` are the groups that were found. -/
def inForce (S : List (List Str)) : List (Option (List Str × Nat × List (Str × Str))) → List NEv
  | [] => []
  | none :: rs => inForce S rs
  | some (g, 0, v) :: rs => if g.dropLast = [] ∨ g.dropLast ∈ S then .start g (recOf v) :: inForce (g :: S) rs else inForce S rs
  | some (g, _ + 1, v) :: rs => if g ∈ S then .line g (recOf v) :: inForce S rs else inForce S rs

/-- `v` is what a template with these groups (each `name*`) makes of the text `d`: for each top group every line of the text is read as (at
most) one line of it or of the groups inside; the matches of the first top group, then of the second and so on become records, and
the records a tree. -/
def MeansTree (toInt : Bool) (tops : List TGroup) (d : Str) (v : Val) : Prop :=
  ∃ readss D, All2 (fun T reads => All2 (ReadsIn (T.listing [])) (splitC '\n' d) reads) tops readss ∧
    Desk.run ⟨[], [], []⟩ (readss.flatMap (inForce [])) = some D ∧ v = .dict (treeOf toInt (fun _ => []) D.recs)

/-- for each top group every line of the text is read as at most one line of it or of the groups inside -/
def ClearIn (tops : List TGroup) (d : Str) : Prop := ∀ T ∈ tops, ∀ t ∈ splitC '\n' d, ∃ r, ReadsIn (T.listing []) t r

/-- the names of variables are not names of groups -/
def NamesApart (tops : List TGroup) : Prop :=
  ∀ x ∈ listings [] tops, ∀ l ∈ x.2, ∀ n ∈ tokNames l.items, ∀ y ∈ listings [] tops, n ∉ y.1

end Spec
