import Verif.Spec.Rich
import Verif.Spec.Nest
/-!
# Specification: what a template with nested groups makes of a text, with patterns, functions, defaults and `_start_`

Written without the loader, the line compiler, regular expressions, the search and the results machine. Lines, and how they are read, are
those of Spec/Rich; how matches of nested groups become a tree is `Desk` and `treeOf` of Spec/Nest.
-/

namespace Spec
open Py TTP

/-- A group of a template: its name, its lines, the blanks before the next tag, child groups, the white space after the closing tag. -/
inductive RGroup where
  | mk (name : Str) (lines : List RLine) (pad : Str) (children : List RGroup) (tail : Str)

/-- its name -/
def RGroup.name : RGroup → Str
  | .mk n _ _ _ _ => n

mutual
/-- the element `<group name="...*">` with these lines, then the child groups -/
def RGroup.xml : RGroup → Xml
  | .mk n ls pad cs tail =>
    .mk c!"group" [(c!"name", n ++ c!"*")] (some ('\n' :: ((ls.map (fun l => l.source ++ c!"\n")).flatten ++ pad))) (richXmls cs) (some tail)
/-- the elements of groups -/
def richXmls : List RGroup → List Xml
  | [] => []
  | c :: cs => c.xml :: richXmls cs
end

/-- A list of lines that is covered: lines as in Spec/Rich, no `_end_` lines, no default for a variable of a start line. -/
structure LinesOK (ctx : LoadCtx) (ls : List RLine) : Prop where
  ne : ls ≠ []
  lines : ∀ l ∈ ls, l.OK ctx
  noEnd : ∀ (j : Nat) (l : RLine), ls[j]? = some l → kindOf j l ≠ .stop
  noStartDefault : ¬ StartDefault ls

mutual
/-- A group as it can be written: an ordinary name, lines that are covered, only white space between the tags, child groups with
different names. -/
def RGroup.OK (ctx : LoadCtx) : RGroup → Prop
  | .mk n ls pad cs tail => GroupName n ∧ LinesOK ctx ls ∧ (∀ c ∈ pad, Blank c) ∧ (∀ c ∈ tail, isSpace c = true) ∧ richGroupsOK ctx cs
/-- groups with different names -/
def richGroupsOK (ctx : LoadCtx) : List RGroup → Prop
  | [] => True
  | c :: cs => c.OK ctx ∧ c.name ∉ cs.map RGroup.name ∧ richGroupsOK ctx cs
end

mutual
/-- all groups of the tree with their lines; a group is called by the names from the top group down (after `p`) -/
def RGroup.listing (p : List Str) : RGroup → List (List Str × List RLine)
  | .mk n ls _ cs _ => (p ++ [n], ls) :: richListings (p ++ [n]) cs
/-- the same for many groups -/
def richListings (p : List Str) : List RGroup → List (List Str × List RLine)
  | [] => []
  | c :: cs => c.listing p ++ richListings p cs
end

/-- What a text line is read as: the group, is it a start line of the group, what the functions of the line make of the values (`none`: they
reject one of them). -/
abbrev RRead := List Str × Bool × Option (Dict Key Val)

/-- How a text line is read: it fits exactly one line of one group, with one choice of values, or none. -/
def RichReadsIn (mf : MatchFns) (env : Env) (groups : List (List Str × List RLine)) (t : Str) : Option RRead → Prop
  | some (g, st, out) => ∃ ls j l vals, (g, ls) ∈ groups ∧ ls[j]? = some l ∧ l.Fits t vals ∧ Valued mf env vals out ∧
      (st = true ↔ kindOf j l = .start) ∧
      ∀ g' ls' i l' vals', (g', ls') ∈ groups → ls'[i]? = some l' → l'.Fits t vals' → g' = g ∧ i = j ∧ vals' = vals
  | none => ∀ g ls, (g, ls) ∈ groups → ∀ l ∈ ls, ∀ vals, ¬ l.Fits t vals

/-- a start line with these values, or a rejected one -/
def startEv (g : List Str) : Option (Dict Key Val) → NEv
  | some d => .start g d
  | none => .bad g

/-- an ordinary line with these values, or a rejected one that does not matter -/
def lineEv (g : List Str) : Option (Dict Key Val) → List NEv
  | some d => [.line g d]
  | none => []

/-- Which of the lines that were read are matches: a start of a child group only after its parent was found, an ordinary line only after
its group was found; a rejected start line finds the group too. `S` are the groups that were found. -/
def richForce (S : List (List Str)) : List (Option RRead) → List NEv
  | [] => []
  | none :: rs => richForce S rs
  | some (g, true, out) :: rs => if g.dropLast = [] ∨ g.dropLast ∈ S then startEv g out :: richForce (g :: S) rs else richForce S rs
  | some (g, false, out) :: rs => if g ∈ S then lineEv g out ++ richForce S rs else richForce S rs

/-- the defaults of a group -/
def dfltOf (groups : List (List Str × List RLine)) (g : List Str) : Dict Key Val :=
  ((groups.find? (fun x => decide (x.1 = g))).map (fun x => richDefaults x.2)).getD []

/-- `v` is what a template with these groups (each `name*`) makes of the text `d`: for each top group every line of the text is read as (at
most) one line of it or of the groups inside; the matches of the first top group, then of the second and so on become records, and
the records, with the defaults of their groups, a tree. -/
def RichMeansTree (mf : MatchFns) (env : Env) (toInt : Bool) (tops : List RGroup) (d : Str) (v : Val) : Prop :=
  ∃ readss D, All2 (fun T reads => All2 (RichReadsIn mf env (T.listing [])) (splitC '\n' d) reads) tops readss ∧
    Desk.run ⟨[], [], []⟩ (readss.flatMap (richForce [])) = some D ∧ v = .dict (treeOf toInt (dfltOf (richListings [] tops)) D.recs)

/-- values that are no dictionaries -/
def FlatRead : Option RRead → Prop
  | some (_, _, some d) => ∀ kv ∈ d, NotDict kv.2
  | _ => True

/-- For each top group every line of the text is read as at most one line of it or of the groups inside, with one choice of values, and
its functions give an answer that is no dictionary. -/
def RichClearIn (mf : MatchFns) (env : Env) (tops : List RGroup) (d : Str) : Prop :=
  ∀ T ∈ tops, ∀ t ∈ splitC '\n' d, ∃ r, RichReadsIn mf env (T.listing []) t r ∧ FlatRead r

/-- the names of variables are not names of groups -/
def RichApart (tops : List RGroup) : Prop :=
  ∀ x ∈ richListings [] tops, ∀ l ∈ x.2, ∀ v ∈ varsOf l.pieces, ∀ y ∈ richListings [] tops, v.name ∉ y.1

/-- defaults are no dictionaries, and no texts that are names of variables (such a default stands for the value of the variable) -/
def RichDfltsOK (env : Env) (tops : List RGroup) : Prop :=
  ∀ x ∈ richListings [] tops, DefaultsPlain env x.2 ∧ ∀ kv ∈ richDefaults x.2, NotDict kv.2

end Spec
