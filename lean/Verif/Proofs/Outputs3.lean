import Verif.Proofs.Outputs2
import Verif.Proofs.Format
import Verif.Proofs.MatchStr
import Verif.Props.Object
import Verif.Props.Fmt
/-!
# Traversal, colours, messages
-/

namespace TTP
open Py Spec MatchFn

/-! ## traverse -/

theorem travPath_iff (p : List Str) (v w : Val) : Format.travPath true p v = .ok w ↔ follow p v = some w := by
  constructor
  · intro h
    induction p generalizing v with
    | nil => cases v <;> (cases h; rfl)
    | cons k p ih =>
      cases v with
      | dict d =>
        simp only [Format.travPath] at h
        simp only [follow]
        cases hg : Dict.get? d (.s k) with
        | none => rw [hg] at h; cases h
        | some x => rw [hg] at h; exact ih x h
      | _ => cases h
  · exact Format.travPath_follow true p v w

theorem traverseL_iff (path : List Str) (xs : List Val) (h : ∀ x ∈ xs, ∀ w, Format.traverse true path x = .ok w ↔ Leads path x w) (ys : List Val) :
    Format.traverseL true path xs = .ok ys ↔ xs.length = ys.length ∧ ∀ (i : Nat) (x y : Val), xs[i]? = some x → ys[i]? = some y → Leads path x y := by
  induction xs generalizing ys with
  | nil =>
    simp only [Format.traverseL, pure_ok, Except.ok.injEq]
    constructor
    · rintro rfl; exact ⟨rfl, fun i x y hx => by simp at hx⟩
    · rintro ⟨hl, _⟩
      cases ys with
      | nil => rfl
      | cons y ys => simp at hl
  | cons x xs ih =>
    have ih := ih (fun z hz => h z (by simp [hz]))
    rw [Format.traverseL]
    simp only [bind_ok_iff, pure_ok, Except.ok.injEq]
    constructor
    · rintro ⟨y, hy, zs, hzs, rfl⟩
      obtain ⟨h1, h2⟩ := (ih zs).1 hzs
      refine ⟨by simp [h1], ?_⟩
      intro i a b ha hb
      cases i with
      | zero =>
        simp only [List.getElem?_cons_zero, Option.some.injEq] at ha hb
        subst ha hb
        exact (h x (by simp) y).1 hy
      | succ i =>
        simp only [List.getElem?_cons_succ] at ha hb
        exact h2 i a b ha hb
    · rintro ⟨hl, h2⟩
      cases ys with
      | nil => simp at hl
      | cons y ys =>
        refine ⟨y, (h x (by simp) y).2 (h2 0 x y rfl rfl), ys, (ih ys).2 ⟨by simpa using hl, ?_⟩, rfl⟩
        intro i a b ha hb
        exact h2 (i + 1) a b (by simpa using ha) (by simpa using hb)

theorem traverse_iff (path : List Str) (v w : Val) : Format.traverse true path v = .ok w ↔ Leads path v w := by
  suffices h : ∀ n, ∀ v : Val, sizeOf v ≤ n → ∀ w, Format.traverse true path v = .ok w ↔ Leads path v w from h _ v (Nat.le_refl _) w
  intro n
  induction n with
  | zero => intro v hv; cases v <;> simp at hv
  | succ n ih =>
    intro v hv w
    have other : (∀ d, v ≠ .dict d) → (∀ xs, v ≠ .list xs) → (v = w ↔ Leads path v w) := by
      intro h1 h2
      constructor
      · rintro rfl; exact .other h1 h2
      · intro h
        cases h with
        | dict _ => exact absurd rfl (h1 _)
        | list _ _ => exact absurd rfl (h2 _)
        | other _ _ => rfl
    cases v with
    | dict d =>
      rw [Format.traverse, travPath_iff]
      constructor
      · exact .dict
      · intro h
        cases h with
        | dict h => exact h
        | other h _ => exact absurd rfl (h d)
    | list xs =>
      rw [Format.traverse]
      have hL := traverseL_iff path xs (fun x hx w => ih x (by
        have := List.sizeOf_lt_of_mem hx
        simp at hv; omega) w)
      simp only [bind_ok_iff, pure_ok, Except.ok.injEq]
      constructor
      · rintro ⟨ys, hys, rfl⟩
        obtain ⟨h1, h2⟩ := (hL ys).1 hys
        exact .list h1 h2
      · intro h
        cases h with
        | list h1 h2 => exact ⟨_, (hL _).2 ⟨h1, h2⟩, rfl⟩
        | other _ h => exact absurd rfl (h xs)
    | _ =>
      rw [Format.traverse]
      simp only [pure_ok, Except.ok.injEq]
      exact other (by intro d e; cases e) (by intro d e; cases e)

/-! ## Colours -/

theorem Coloured_refl (s : Str) : Coloured s s := by
  induction s with
  | nil => exact .nil
  | cons c s ih => exact .char ih

theorem Coloured_append {s t s' t' : Str} (h : Coloured s t) (h' : Coloured s' t') : Coloured (s ++ s') (t ++ t') := by
  induction h with
  | nil => exact h'
  | char _ ih => exact .char ih
  | code hk _ ih => rw [List.append_assoc]; exact .code hk ih

theorem Coloured_split (c : Char) (hc : ∀ k ∈ [ansiRed, ansiGreen, ansiYellow, ansiEnd], c ∉ k) (p u : Str) (h : Coloured p u) (a b : Str)
    (hu : u = a ++ c :: b) : ∃ p1 p2, p = p1 ++ c :: p2 ∧ Coloured p1 a ∧ Coloured p2 b := by
  induction h generalizing a with
  | nil => cases a <;> cases hu
  | @char x s t h ih =>
    cases a with
    | nil =>
      simp only [List.nil_append, List.cons.injEq] at hu
      obtain ⟨rfl, rfl⟩ := hu
      exact ⟨[], s, rfl, .nil, h⟩
    | cons y a =>
      simp only [List.cons_append, List.cons.injEq] at hu
      obtain ⟨rfl, rfl⟩ := hu
      obtain ⟨p1, p2, rfl, h1, h2⟩ := ih a rfl
      exact ⟨x :: p1, p2, rfl, .char h1, h2⟩
  | @code k s t hk h ih =>
    have hck := hc k hk
    rcases List.append_eq_append_iff.1 hu with ⟨m, e1, e2⟩ | ⟨m, e1, e2⟩
    · subst e1
      obtain ⟨p1, p2, rfl, h1, h2⟩ := ih m e2
      exact ⟨p1, p2, rfl, .code hk h1, h2⟩
    · cases m with
      | nil =>
        simp only [List.append_nil] at e1
        simp only [List.nil_append] at e2
        subst e1
        obtain ⟨p1, p2, rfl, h1, h2⟩ := ih [] e2.symm
        exact ⟨p1, p2, rfl, by simpa using Coloured.code hk h1, h2⟩
      | cons y m =>
        simp only [List.cons_append, List.cons.injEq] at e2
        obtain ⟨rfl, _⟩ := e2
        exact absurd (by rw [e1]; simp) hck

theorem Coloured_split_word (w : Str) (hw : NotInCodes w) (hne : w ≠ []) (p a b : Str) (h : Coloured p (a ++ w ++ b)) :
    ∃ p1 p2, p = p1 ++ w ++ p2 ∧ Coloured p1 a ∧ Coloured p2 b := by
  cases w with
  | nil => exact absurd rfl hne
  | cons c w =>
    obtain ⟨p1, p2, rfl, h1, h2⟩ := Coloured_split c (hw c (by simp)) p _ h a (w ++ b) (by simp)
    have hw' : NotInCodes w := fun d hd => hw d (by simp [hd])
    clear h hne hw
    have : ∃ p3, p2 = w ++ p3 ∧ Coloured p3 b := by
      induction w generalizing p2 with
      | nil => exact ⟨p2, rfl, h2⟩
      | cons d w ih =>
        obtain ⟨q1, q2, rfl, g1, g2⟩ := Coloured_split d (hw' d (by simp)) p2 _ h2 [] (w ++ b) (by simp)
        have : q1 = [] := by
          cases q1 with
          | nil => rfl
          | cons y q =>
            exfalso
            generalize hz : ([] : Str) = z at g1
            cases g1 with
            | char _ => cases hz
            | code hk _ =>
              have := congrArg List.length hz
              simp only [List.mem_cons, List.not_mem_nil, or_false] at hk
              rcases hk with rfl | rfl | rfl | rfl <;> simp [ansiRed, ansiGreen, ansiYellow, ansiEnd] at this
        subst this
        obtain ⟨p3, rfl, h3⟩ := ih q2 g2 (fun x hx => hw' x (by simp [hx]))
        exact ⟨p3, rfl, h3⟩
    obtain ⟨p3, rfl, h3⟩ := this
    exact ⟨p1, p3, by simp, h1, h3⟩

theorem Coloured_replaced (code w : Str) (hcode : code ∈ [ansiRed, ansiGreen, ansiYellow, ansiEnd]) (hw : NotInCodes w) (hne : w ≠ []) (t u : Str)
    (hr : Replaced w (code ++ w ++ ansiEnd) t u) (p : Str) (h : Coloured p t) : Coloured p u := by
  induction hr generalizing p with
  | none s _ => exact h
  | next a b u _ _ ih =>
    obtain ⟨p1, p2, rfl, h1, h2⟩ := Coloured_split_word w hw hne p a b h
    have := Coloured_append h1 (Coloured.code hcode (Coloured_append (Coloured_refl w) (Coloured.code (k := ansiEnd) (by simp) (ih p2 h2))))
    simpa [List.append_assoc] using this

theorem Coloured_seq (code : Str) (hcode : code ∈ [ansiRed, ansiGreen, ansiYellow, ansiEnd]) (words : List Str) (hw : ∀ w ∈ words, w ≠ [] ∧ NotInCodes w)
    (t u : Str) (hr : ReplacedSeq (colourPairs code words) t u) (p : Str) (h : Coloured p t) : Coloured p u := by
  induction words generalizing t with
  | nil => cases hr; exact h
  | cons w words ih =>
    cases hr with
    | cons _ _ _ t' _ _ h1 h2 =>
      exact ih (fun x hx => hw x (by simp [hx])) t' h2 (Coloured_replaced code w hcode (hw w (by simp)).2 (hw w (by simp)).1 t t' h1 p h)

theorem colour_iff (code : Str) (words : List Str) (hw : ∀ w ∈ words, w ≠ []) (s t : Str) :
    ReplacedSeq (colourPairs code words) s t ↔ t = OutFn.colour code words s := by
  rw [ReplacedSeq_iff _ (by
    intro p hp
    obtain ⟨w, hw', rfl⟩ := List.mem_map.1 hp
    exact hw w hw')]
  have : runPairs (colourPairs code words) s = OutFn.colour code words s := by
    unfold runPairs OutFn.colour colourPairs
    rw [List.foldl_map]
    rfl
  rw [this]

theorem ReplacedSeq_append (ps qs : List (Str × Str)) (s t : Str) :
    ReplacedSeq (ps ++ qs) s t ↔ ∃ m, ReplacedSeq ps s m ∧ ReplacedSeq qs m t := by
  induction ps generalizing s with
  | nil =>
    constructor
    · intro h; exact ⟨s, .nil s, h⟩
    · rintro ⟨m, h1, h2⟩; cases h1; exact h2
  | cons p ps ih =>
    constructor
    · intro h
      cases h with
      | cons old new _ t' _ _ h1 h2 =>
        obtain ⟨m, g1, g2⟩ := (ih t').1 h2
        exact ⟨m, .cons _ _ _ _ _ _ h1 g1, g2⟩
    · rintro ⟨m, h1, h2⟩
      cases h1 with
      | cons old new _ t' _ _ g1 g2 =>
        exact .cons _ _ _ _ _ _ g1 ((ih t').2 ⟨m, g2, h2⟩)

/-! ## Messages -/

theorem flatMap_toOption (json : Val → PyM Str) (xs : List Val) :
    xs.flatMap (fun x => (json x).toOption.toList) = xs.filterMap (fun i => (json i).toOption) := by
  induction xs with
  | nil => rfl
  | cons x xs ih =>
    rw [List.flatMap_cons, List.filterMap_cons, ih]
    cases (json x).toOption <;> rfl

theorem messages_iff (W : OutFn.OutWorld) (path : List Str) (iterate : Bool) (v : Val) (ms : List Str) :
    Messages (Json.dump Json.compact 0) path iterate v ms ↔ ms = OutFn.messages W path iterate v := by
  have key : ∀ w, Format.traverse true path v = .ok w ↔ Leads path v w := traverse_iff path v
  have uniq : ∀ w w', Leads path v w → Leads path v w' → w = w' := by
    intro w w' h1 h2
    have a := (key w).2 h1
    rw [(key w').2 h2] at a
    cases a; rfl
  unfold OutFn.messages
  by_cases ht : v.truthy = true
  · rw [if_neg (by simp [ht])]
    cases hv : Format.traverse true path v with
    | error e =>
      have none : ¬ ∃ w, Leads path v w := by
        rintro ⟨w, hw⟩
        rw [(key w).2 hw] at hv
        cases hv
      simp only
      constructor
      · intro h
        cases h with
        | empty h => rfl
        | lost _ _ => rfl
        | blank _ h _ => exact absurd ⟨_, h⟩ none
        | items _ h _ _ => exact absurd ⟨_, h⟩ none
        | whole _ h _ _ => exact absurd ⟨_, h⟩ none
      · rintro rfl; exact .lost ht none
    | ok w =>
      have hw := (key w).1 hv
      simp only
      by_cases hwt : w.truthy = true
      · rw [if_neg (by simp [hwt])]
        constructor
        · intro h
          cases h with
          | empty h => rw [ht] at h; cases h
          | lost _ h => exact absurd ⟨_, hw⟩ h
          | blank _ h1 h2 => rw [uniq _ _ hw h1, h2] at hwt; cases hwt
          | items _ h1 h2 h3 =>
            cases uniq _ _ hw h1
            simp only [h3, if_true]
            exact flatMap_toOption _ _
          | whole _ h1 h2 h3 =>
            cases uniq _ _ hw h1
            rcases h3 with h3 | h3
            · cases w <;> simp [h3]
            · cases w with
              | list xs => exact absurd rfl (h3 xs)
              | _ => rfl
        · rintro rfl
          cases w with
          | list xs =>
            cases iterate with
            | true =>
              simp only [if_true]
              rw [← flatMap_toOption]
              exact .items ht hw (by rintro rfl; simp [Val.truthy] at hwt) rfl
            | false => exact .whole ht hw hwt (.inl rfl)
          | _ => exact .whole ht hw hwt (.inr (by intro xs e; cases e))
      · have hwf : w.truthy = false := by simpa using hwt
        rw [if_pos (by simp [hwf])]
        constructor
        · intro h
          cases h with
          | empty h => rfl
          | lost _ h => rfl
          | blank _ h1 h2 => rfl
          | items _ h1 h2 h3 =>
            have e := uniq _ _ hw h1
            subst e
            exfalso
            exact h2 (by simpa [Val.truthy] using hwf)
          | whole _ h1 h2 h3 => rw [uniq _ _ hw h1, h2] at hwf; cases hwf
        · rintro rfl; exact .blank ht hw hwf
  · have hf : v.truthy = false := by simpa using ht
    rw [if_pos (by simp [hf])]
    constructor
    · intro h
      cases h with
      | empty h => rfl
      | lost h _ => rfl
      | blank h _ _ => rfl
      | items h _ _ _ => rw [hf] at h; cases h
      | whole h _ _ _ => rw [hf] at h; cases h
    · rintro rfl; exact .empty hf

end TTP
