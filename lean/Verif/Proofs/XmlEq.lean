import Verif.Proofs.XmlText6
import Verif.Spec.Extend
/-!
# Elements can be compared (for examples)
-/

namespace TTP
open Py
namespace XmlText

mutual
/-- the elements are the same -/
def same : Xml → Xml → Bool
  | .mk n a t cs tl, .mk n' a' t' cs' tl' => decide (n = n') && decide (a = a') && decide (t = t') && sameAll cs cs' && decide (tl = tl')
/-- the lists are the same -/
def sameAll : List Xml → List Xml → Bool
  | [], [] => true
  | x :: xs, y :: ys => same x y && sameAll xs ys
  | _, _ => false
end

mutual
theorem same_eq : ∀ (x y : Xml), same x y = true → x = y
  | .mk n a t cs tl, .mk n' a' t' cs' tl', h => by
    rw [same] at h
    simp only [Bool.and_eq_true, decide_eq_true_eq] at h
    obtain ⟨⟨⟨⟨rfl, rfl⟩, rfl⟩, h⟩, rfl⟩ := h
    rw [sameAll_eq _ _ h]
theorem sameAll_eq : ∀ (xs ys : List Xml), sameAll xs ys = true → xs = ys
  | [], [], _ => rfl
  | x :: xs, y :: ys, h => by
    rw [sameAll, Bool.and_eq_true] at h
    rw [same_eq _ _ h.1, sameAll_eq _ _ h.2]
  | [], _ :: _, h => by simp [sameAll] at h
  | _ :: _, [], h => by simp [sameAll] at h
end

/-- the text is read as this element -/
def reads (s : Str) (x : Xml) : Bool :=
  match parse s with
  | some y => same y x
  | none => false

theorem reads_eq {s : Str} {x : Xml} (h : reads s x = true) : parse s = some x := by
  unfold reads at h
  cases e : parse s with
  | none => rw [e] at h; cases h
  | some y => rw [e] at h; rw [same_eq _ _ h]

/-- the result is this element -/
def gives (r : PyM Xml) (x : Xml) : Bool :=
  match r with
  | .ok y => same y x
  | .error _ => false

theorem gives_eq {r : PyM Xml} {x : Xml} (h : gives r x = true) : r = .ok x := by
  unfold gives at h
  match r, h with
  | .ok y, h => rw [same_eq _ _ h]

/-- `none`: not XML -/
theorem parse_none {s : Str} (h : (parse s).isNone = true) : parse s = none := by simpa using h

theorem reread_whole (x : Xml) (h : reads (tostring true x) x = true) (ht : lower x.tag = c!"template") (hc : x.children ≠ []) :
    Spec.TreeOf parse (tostring true x) x := .whole (reads_eq h) ht hc

end XmlText
end TTP
