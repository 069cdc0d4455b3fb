import Verif.Model.Extend
import Verif.Spec.Plain
/-!
# Specification: extend tags

What a template with `extend` tags means: each tag stands for elements of the template it names. Of the model only elements, files and the
XML parser are used.
-/

namespace Spec
open Py TTP

/-- the path names a text: a file, a file in the directory of templates, a template of the collection -/
inductive FileText (w : World) : Str → Str → Prop
  | file {p c : Str} : ¬ c!"ttp://" <+: p → w.isFile (p.take 5000) = true → w.readFile p = .ok c → FileText w p c
  | dir {p c d : Str} : ¬ c!"ttp://" <+: p → w.isFile (p.take 5000) = false → w.templatesDir = some d → d ≠ [] →
      w.isFile (d ++ '/' :: p.take 5000) = true → w.readFile (d ++ '/' :: p.take 5000) = .ok c → FileText w p c
  | collection {p : Str} : c!"ttp://" <+: p → FileText w p (w.ttpTemplate (replace p c!"ttp://" []))

/-- a template is given as its text, or as a path that names the text -/
inductive Given (w : World) : Str → Str → Prop
  | text {s : Str} : NotAPath w s → Given w s s
  | path {p s : Str} : FileText w p s → Given w p s

/-- the tree of a text without tags that is written for the text `u` -/
def textTree (u : Str) : Xml :=
  .mk c!"template" [] none [.mk c!"group" [(c!"name", c!"_anonymous_")] (some (c!"\n" ++ u ++ c!"\n")) [] none] none

/-- the tree of the text of a template: a template tag with elements, elements without a template tag, or text without tags -/
inductive TreeOf (parse : Str → Option Xml) : Str → Xml → Prop
  | whole {s : Str} {x : Xml} : parse s = some x → lower x.tag = c!"template" → x.children ≠ [] → TreeOf parse s x
  | parts {s : Str} {x : Xml} : (∀ y, parse s = some y → lower y.tag ≠ c!"template") →
      parse (c!"<template>\n" ++ s ++ c!"\n</template>") = some x → x.children ≠ [] → TreeOf parse s x
  | text {s u : Str} : ReadsPlain parse s u → TreeOf parse s (textTree u)

/-- The tree that an `extend` tag with these attributes names: of the text of the file, after the macro function if one is named. -/
inductive Extended (w : World) (parse : Str → Option Xml) (macros : Str → Option (Str → PyM Str)) (a : Dict Str Str) : Xml → Prop
  | mk {p c s : Str} {e : Xml} : Dict.get? a c!"template" = some p → FileText w p c → c ≠ p →
      ((s = c ∧ ∀ m, Dict.get? a c!"macro" = some m → macros m = none) ∨
        (∃ m f, Dict.get? a c!"macro" = some m ∧ macros m = some f ∧ f c = .ok s)) → TreeOf parse s e →
      Extended w parse macros a e

/-- `n` is one of the items of the attribute, which are separated by commas -/
def Lists (a : Dict Str Str) (attr n : Str) : Prop := n ≠ [] ∧ ∃ v, Dict.get? a attr = some v ∧ ∃ i ∈ splitC ',' v, strip i = n

/-- the attributes of an `extend` tag that choose elements, with the tags they choose from -/
def choosers : List (Str × List Str) :=
  [(c!"inputs", [c!"i", c!"in", c!"input"]), (c!"vars", [c!"v", c!"vars", c!"variables"]), (c!"groups", [c!"g", c!"grp", c!"group"]),
   (c!"lookups", [c!"lookup"]), (c!"outputs", [c!"o", c!"out", c!"output"])]

/-- The element `x` is chosen by the attribute, if the attribute lists anything: by its name, or - a group - by its number `k` among the
groups. -/
def ChosenBy (a : Dict Str Str) (attr : Str) (k : Nat) (x : Xml) : Prop :=
  (∃ n, Lists a attr n) → (∃ n, Dict.get? x.attrib c!"name" = some n ∧ Lists a attr n) ∨ (attr = c!"groups" ∧ Lists a attr (natStr k))

/-- a group tag -/
def GroupTag (x : Xml) : Prop := x.tag ∈ [c!"g", c!"grp", c!"group"]

/-- The element is taken over: at the top of the template all that the attributes choose, elsewhere only groups that are chosen and further
`extend` tags. -/
def Taken (top : Bool) (a : Dict Str Str) (k : Nat) (x : Xml) : Prop :=
  if top then ∀ c ∈ choosers, x.tag ∈ c.2 → ChosenBy a c.1 k x
  else x.tag = c!"extend" ∨ (GroupTag x ∧ ChosenBy a c!"groups" k x)

/-- the elements that are taken over; `k` groups came before -/
inductive TakenOf (top : Bool) (a : Dict Str Str) : Nat → List Xml → List Xml → Prop
  | nil {k : Nat} : TakenOf top a k [] []
  | keep {k k' : Nat} {x : Xml} {xs ys : List Xml} : Taken top a k x → (GroupTag x → k' = k + 1) → (¬ GroupTag x → k' = k) →
      TakenOf top a k' xs ys → TakenOf top a k (x :: xs) (x :: ys)
  | drop {k k' : Nat} {x : Xml} {xs ys : List Xml} : ¬ Taken top a k x → (GroupTag x → k' = k + 1) → (¬ GroupTag x → k' = k) →
      TakenOf top a k' xs ys → TakenOf top a k (x :: xs) ys

/-- the tree is a text without tags: its text -/
def PlainTree (e : Xml) (t : Option Str) : Prop :=
  ∃ g, e.children = [g] ∧ Dict.get? g.attrib c!"name" = some c!"_anonymous_" ∧ g.text = t

mutual
/-- there is no `extend` tag to handle: the element is none, and if it is a `group`, none is in it -/
inductive Settled : Xml → Prop
  | mk {tag : Str} {a : Dict Str Str} {t : Option Str} {cs : List Xml} {tl : Option Str} : tag ≠ c!"extend" →
      (tag = c!"group" → SettledAll cs) → Settled (.mk tag a t cs tl)
/-- the same for lists -/
inductive SettledAll : List Xml → Prop
  | nil : SettledAll []
  | cons {x : Xml} {xs : List Xml} : Settled x → SettledAll xs → SettledAll (x :: xs)
end

/-- Elements with `extend` tags, and what they stand for, with the text before them. `own`: the elements are in a template or a group of
their own, so that a text without tags can be added to the text before them. -/
inductive Expands (w : World) (parse : Str → Option Xml) (macros : Str → Option (Str → PyM Str)) :
    (own top : Bool) → Option Str → List Xml → Option Str → List Xml → Prop
  | nil {own top : Bool} {t : Option Str} : Expands w parse macros own top t [] t []
  /-- other elements stay -/
  | other {own top : Bool} {t t' : Option Str} {x : Xml} {xs ys : List Xml} : x.tag ≠ c!"extend" → x.tag ≠ c!"group" →
      Expands w parse macros own top t xs t' ys → Expands w parse macros own top t (x :: xs) t' (x :: ys)
  /-- in a group -/
  | group {own top : Bool} {t t' : Option Str} {a : Dict Str Str} {s s' : Option Str} {cs cs' : List Xml} {tl : Option Str} {xs ys : List Xml} :
      Expands w parse macros true false s cs s' cs' → Expands w parse macros own top t xs t' ys →
      Expands w parse macros own top t (.mk c!"group" a s cs tl :: xs) t' (.mk c!"group" a s' cs' tl :: ys)
  /-- the tag stands for what is taken over from the named template, at least one element -/
  | extend {own top : Bool} {t t' : Option Str} {a : Dict Str Str} {s : Option Str} {cs : List Xml} {tl : Option Str} {xs ys : List Xml}
      {e : Xml} {ks ks' : List Xml} : Extended w parse macros a e → (∀ s, ¬ PlainTree e s) → TakenOf top a 0 e.children ks → ks ≠ [] →
      Expands w parse macros false false none ks none ks' → Expands w parse macros own top t xs t' ys →
      Expands w parse macros own top t (.mk c!"extend" a s cs tl :: xs) t' (ks' ++ ys)
  /-- or for the text of a template without tags, if the next element has nothing to handle -/
  | plain {top : Bool} {t t' : Option Str} {t0 u : Str} {a : Dict Str Str} {s : Option Str} {cs : List Xml} {tl : Option Str}
      {xs ys : List Xml} {e : Xml} : Extended w parse macros a e → PlainTree e (some u) → t = some t0 → (∀ y ys, xs = y :: ys → Settled y) →
      Expands w parse macros true top (some (t0 ++ u)) xs t' ys →
      Expands w parse macros true top t (.mk c!"extend" a s cs tl :: xs) t' ys

end Spec
