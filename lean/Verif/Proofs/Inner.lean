import Verif.Model.Inner
import Verif.Spec.Inner
import Verif.Proofs.XmlText7
import Verif.Proofs.Tags
/-!
# Templates inside of templates, as texts
-/

namespace TTP
open Py Spec

namespace XmlText

theorem misc_blank {s : Str} (h : XBlank s) : XMisc s := by
  induction s with
  | nil => exact .nil
  | cons c s ih => exact .blank c (by intro d hd; rw [List.mem_singleton] at hd; rw [hd]; exact h c (by simp)) (ih (fun d hd => h d (by simp [hd])))

theorem encode_blank {ascii : Bool} {s : Str} (h : XBlank s) : encode ascii (s.flatMap escText) = s := by
  have e : s.flatMap escText = s := by
    induction s with
    | nil => rfl
    | cons c s ih =>
      rw [List.flatMap_cons, ih (fun d hd => h d (by simp [hd]))]
      rcases h c (by simp) with rfl | rfl | rfl <;> rfl
  rw [e]
  refine encode_ascii ?_
  intro c hc
  rcases h c hc with rfl | rfl | rfl <;> decide

/-- white space after the element is not read -/
theorem parse_tostring_blank (ascii : Bool) {x : Xml} (hp : ProperXml x) (hr : NoReturns x) (hb : ∀ s, x.tail = some s → XBlank s) :
    parse (tostring ascii x) = some (.mk x.tag x.attrib x.text x.children none) := by
  rw [parse_iff]
  obtain ⟨t, h1, h2, _⟩ := serialize_element (ascii := ascii) hp
  have hf := fine_encode (ascii := ascii) (fine_serialize hp hr)
  have hb' : XBlank (x.tail.getD []) := by
    cases e : x.tail with
    | none => intro c hc; cases hc
    | some s => exact hb s e
  rw [encode_blank hb'] at h2
  unfold tostring
  rw [h2] at hf ⊢
  have ht := proper_text hp
  have := XDocument.mk (bom := []) (s := t ++ x.tail.getD []) (a := []) (t := t) (b := x.tail.getD []) (fun c hc => (hf c hc).1) (Or.inl rfl) (by
    rw [List.nil_append]
    exact unix_self (fun h => (hf _ h).2 rfl)) .nil h1 (misc_blank hb')
  rw [someText_getD ht] at this
  exact this

end XmlText

theorem constructBytes_whole {parse : Str → Option Xml} {s : Str} {x : Xml} (h1 : parse s = some x) (h2 : lower x.tag = c!"template") (h3 : x.children ≠ []) :
    constructBytes parse s = .ok x := by
  have : x.children.isEmpty = false := by cases e : x.children with
    | nil => exact absurd e h3
    | cons _ _ => rfl
  unfold constructBytes
  simp only [h1, h2, if_true, pure_ok, ok_bind, this, Bool.false_eq_true, if_false]

end TTP
