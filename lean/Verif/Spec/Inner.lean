import Verif.Spec.Extend
import Verif.Spec.XmlText
import Verif.Model.XmlText
import Verif.Model.Inner
/-!
# Specification: templates inside of templates
-/

namespace Spec
open Py TTP

mutual
/-- The template inside `x` is loaded as the tree `y`: nothing but white space follows it and there are no carriage returns in its texts; the `extend`
tags in it are replaced by what they stand for, and the templates inside of it are of the same kind. -/
inductive Becomes (w : World) (parse : Str → Option Xml) (macros : Str → Option (Str → PyM Str)) : Xml → Xml → Prop
  /-- a template without elements (see `rewrapBytes`) -/
  | plain {n : Str} {a : Dict Str Str} {t tl : Option Str} : (∀ s, tl = some s → XBlank s) → NoReturns (.mk n a t [] tl) →
      Becomes w parse macros (.mk n a t [] tl) (.mk n a t [] tl)
  /-- a template with elements -/
  | full {n : Str} {a : Dict Str Str} {t t' tl : Option Str} {cs ys zs : List Xml} : cs ≠ [] → (∀ s, tl = some s → XBlank s) →
      NoReturns (.mk n a t cs tl) → Expands w parse macros true true t cs t' ys → ys ≠ [] → NoReturns (.mk n a t' ys none) →
      BecomeAll w parse macros ys zs → Becomes w parse macros (.mk n a t cs tl) (.mk n a t' zs tl)
/-- elements of a template: the templates among them become the trees they are loaded as, others stay -/
inductive BecomeAll (w : World) (parse : Str → Option Xml) (macros : Str → Option (Str → PyM Str)) : List Xml → List Xml → Prop
  | nil : BecomeAll w parse macros [] []
  | template {x y : Xml} {xs ys : List Xml} : lower x.tag = c!"template" → Becomes w parse macros x y → BecomeAll w parse macros xs ys →
      BecomeAll w parse macros (x :: xs) (y :: ys)
  | other {x : Xml} {xs ys : List Xml} : lower x.tag ≠ c!"template" → BecomeAll w parse macros xs ys → BecomeAll w parse macros (x :: xs) (x :: ys)
end

/-- a template inside of a template (followed by white space at most), and the template that it stands for: every `extend` tag in it is replaced -/
inductive InsideOf (w : World) (macros : Str → Option (Str → PyM Str)) : Xml → Xml → Prop
  | mk {n : Str} {a : Dict Str Str} {t t' tl : Option Str} {cs zs : List Xml} (hne : cs ≠ []) (hb : ∀ s, tl = some s → XBlank s)
      (hr : NoReturns (.mk n a t cs tl)) (h : Expands w XmlText.parse macros true true t cs t' zs) (hr' : NoReturns (.mk n a t' zs none)) :
      InsideOf w macros (.mk n a t cs tl) (.mk n a t' zs none)
  /-- a template without elements: its lines are not those of a group (C141) but its bytes are, as Python shows them -/
  | plain {n : Str} {a : Dict Str Str} {t tl : Option Str} (hb : ∀ s, tl = some s → XBlank s) (hr : NoReturns (.mk n a t [] tl)) :
      InsideOf w macros (.mk n a t [] tl) (.mk c!"template" [] none [rewrapBytes (.mk n a t [] tl)] none)

/-- the value of a hexadecimal digit as Python writes them -/
def HexOf (c : Char) (n : Nat) : Prop := ('0' ≤ c ∧ c ≤ '9' ∧ n = c.toNat - '0'.toNat) ∨ ('a' ≤ c ∧ c ≤ 'f' ∧ n = c.toNat - 'a'.toNat + 10)

/-- `BytesLit q s bs`: the text `s` between quotes `q` is a bytes literal of Python for the bytes `bs`. -/
inductive BytesLit (q : Char) : Str → List Nat → Prop
  | nil : BytesLit q [] []
  | char {c : Char} {s : Str} {bs : List Nat} : 32 ≤ c.toNat → c.toNat < 127 → c ≠ '\\' → c ≠ q → BytesLit q s bs → BytesLit q (c :: s) (c.toNat :: bs)
  | back {s : Str} {bs : List Nat} : BytesLit q s bs → BytesLit q ('\\' :: '\\' :: s) (92 :: bs)
  | quote {c : Char} {s : Str} {bs : List Nat} : c = '\'' ∨ c = '"' → BytesLit q s bs → BytesLit q ('\\' :: c :: s) (c.toNat :: bs)
  | tab {s : Str} {bs : List Nat} : BytesLit q s bs → BytesLit q ('\\' :: 't' :: s) (9 :: bs)
  | newline {s : Str} {bs : List Nat} : BytesLit q s bs → BytesLit q ('\\' :: 'n' :: s) (10 :: bs)
  | back_r {s : Str} {bs : List Nat} : BytesLit q s bs → BytesLit q ('\\' :: 'r' :: s) (13 :: bs)
  | hex {a b : Char} {x y : Nat} {s : Str} {bs : List Nat} : HexOf a x → HexOf b y → BytesLit q s bs → BytesLit q ('\\' :: 'x' :: a :: b :: s) ((16 * x + y) :: bs)

/-- the bytes of a text in UTF-8 (as Lean's own library encodes it) -/
def utf8Bytes (s : Str) : List Nat := s.flatMap (fun c => (String.utf8EncodeChar c).map UInt8.toNat)

end Spec
