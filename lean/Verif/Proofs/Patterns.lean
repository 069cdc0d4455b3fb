import Verif.Spec.Patterns
import Verif.Proofs.LineText3
/-! # What expressions without captures and lookahead match -/

namespace TTP
open Py Py.Re Py.ReText Spec

/-- the expression matches exactly the beginnings in `L` -/
def Lang (r : Re) (L : Str → Prop) : Prop := ∀ s h, h ∈ run r s ↔ L h.1 ∧ h.1 ++ h.2.1 = s ∧ h.2.2 = []

theorem Lang.congr {r : Re} {L M : Str → Prop} (h : Lang r L) (e : ∀ s, L s ↔ M s) : Lang r M := by
  intro s x; rw [h s x, e]

theorem Lang.eps : Lang .eps (· = []) := by
  intro s h
  obtain ⟨a, b, c⟩ := h
  rw [mem_eps]
  simp only [Prod.mk.injEq]
  constructor
  · rintro ⟨rfl, rfl, rfl⟩; exact ⟨rfl, rfl, rfl⟩
  · rintro ⟨rfl, rfl, rfl⟩; exact ⟨rfl, rfl, rfl⟩

theorem Lang.cls (c : CC) : Lang (.cls c) (fun s => ∃ x, c.test x = true ∧ s = [x]) := by
  intro s h
  obtain ⟨a, b, d⟩ := h
  rw [mem_cls]
  constructor
  · rintro ⟨x, xs, rfl, ht, e⟩
    cases e
    exact ⟨⟨x, ht, rfl⟩, rfl, rfl⟩
  · rintro ⟨⟨x, ht, e⟩, e2, e3⟩
    simp only at e e2 e3
    subst e e3
    exact ⟨x, b, e2.symm, ht, rfl⟩

theorem Lang.seq {a b : Re} {L M : Str → Prop} (ha : Lang a L) (hb : Lang b M) :
    Lang (.seq a b) (fun s => ∃ u v, L u ∧ M v ∧ s = u ++ v) := by
  intro s h
  obtain ⟨x, y, z⟩ := h
  rw [mem_seq]
  constructor
  · rintro ⟨h1, m1, h2, m2, e⟩
    obtain ⟨a1, a2, a3⟩ := (ha _ _).1 m1
    obtain ⟨b1, b2, b3⟩ := (hb _ _).1 m2
    cases e
    exact ⟨⟨_, _, a1, b1, rfl⟩, by simp only [List.append_assoc]; rw [b2, a2], by simp [a3, b3]⟩
  · rintro ⟨⟨u, v, hu, hv, e⟩, e2, e3⟩
    simp only at e e2 e3
    subst e e3
    exact ⟨(u, v ++ y, []), (ha _ _).2 ⟨hu, by rw [← e2, List.append_assoc], rfl⟩, (v, y, []), (hb _ _).2 ⟨hv, rfl, rfl⟩, rfl⟩

theorem Lang.alt {a b : Re} {L M : Str → Prop} (ha : Lang a L) (hb : Lang b M) : Lang (.alt a b) (fun s => L s ∨ M s) := by
  intro s h
  rw [mem_alt, ha s h, hb s h]
  constructor
  · rintro (⟨h1, h2⟩ | ⟨h1, h2⟩)
    · exact ⟨Or.inl h1, h2⟩
    · exact ⟨Or.inr h1, h2⟩
  · rintro ⟨h1 | h1, h2⟩
    · exact Or.inl ⟨h1, h2⟩
    · exact Or.inr ⟨h1, h2⟩

/-- words one after the other -/
def Cat (L : Str → Prop) (n : Nat) (s : Str) : Prop := ∃ ws : List Str, ws.length = n ∧ (∀ w ∈ ws, L w) ∧ s = ws.flatten

theorem Lang.star (g : Bool) {r : Re} {L : Str → Prop} (h : Lang r L) (hne : ∀ s, L s → s ≠ []) :
    Lang (.star g r) (fun s => ∃ n, Cat L n s) := by
  have key : ∀ n s x, s.length ≤ n → (x ∈ starRun (run r) g n s ↔ (∃ n, Cat L n x.1) ∧ x.1 ++ x.2.1 = s ∧ x.2.2 = []) := by
    intro n
    induction n with
    | zero =>
      intro s x hs
      have : s = [] := List.length_eq_zero_iff.1 (by omega)
      subst this
      obtain ⟨a, b, d⟩ := x
      simp only [starRun, List.mem_singleton, Prod.mk.injEq, List.append_eq_nil_iff]
      constructor
      · rintro ⟨rfl, rfl, rfl⟩; exact ⟨⟨0, [], rfl, by simp, rfl⟩, ⟨rfl, rfl⟩, rfl⟩
      · rintro ⟨_, ⟨h1, h2⟩, h3⟩; exact ⟨h1, h2, h3⟩
    | succ n ih =>
      intro s x hs
      rw [mem_starRun]
      constructor
      · rintro (rfl | ⟨k, ek, h1, m1, hn, h2, m2, rfl⟩)
        · exact ⟨⟨0, [], rfl, by simp, rfl⟩, rfl, rfl⟩
        · cases ek
          obtain ⟨a1, a2, a3⟩ := (h _ _).1 m1
          have hl : h1.2.1.length ≤ n := by
            have := congrArg List.length a2
            rw [List.length_append] at this
            have : h1.1.length ≠ 0 := by intro e; exact hn (List.length_eq_zero_iff.1 e)
            omega
          obtain ⟨⟨m, ws, e1, e2, e3⟩, b2, b3⟩ := (ih _ _ hl).1 m2
          refine ⟨⟨m + 1, h1.1 :: ws, by simp [e1], ?_, by simp [e3]⟩, by simp only [List.append_assoc]; rw [b2, a2], by simp [a3, b3]⟩
          intro w hw
          rcases List.mem_cons.1 hw with rfl | hw
          · exact a1
          · exact e2 w hw
      · obtain ⟨a, b, d⟩ := x
        rintro ⟨⟨m, ws, e1, e2, e3⟩, h2, h3⟩
        simp only at e3 h2 h3
        subst h3
        cases ws with
        | nil =>
          simp only [List.flatten_nil] at e3
          subst e3
          exact Or.inl (by simpa using h2)
        | cons w ws =>
          right
          have hw := e2 w (by simp)
          refine ⟨n, rfl, (w, ws.flatten ++ b, []), (h _ _).2 ⟨hw, by rw [← h2, e3]; simp, rfl⟩, hne w hw,
            (ws.flatten, b, []), ?_, by simp [e3]⟩
          refine (ih _ _ ?_).2 ⟨⟨ws.length, ws, rfl, fun v hv => e2 v (by simp [hv]), rfl⟩, rfl, rfl⟩
          have := congrArg List.length h2
          rw [e3] at this
          simp only [List.flatten_cons, List.length_append] at this
          have : w.length ≠ 0 := by intro e; exact hne w hw (List.length_eq_zero_iff.1 e)
          simp only [List.length_append]
          omega
  intro s x
  exact key _ s x (Nat.le_refl _)

theorem Cat.zero {L : Str → Prop} {s : Str} : Cat L 0 s ↔ s = [] := by
  constructor
  · rintro ⟨ws, e, _, rfl⟩
    rw [List.length_eq_zero_iff.1 e]; rfl
  · rintro rfl; exact ⟨[], rfl, by simp, rfl⟩

theorem Cat.succ {L : Str → Prop} {n : Nat} {s : Str} : Cat L (n + 1) s ↔ ∃ u v, L u ∧ Cat L n v ∧ s = u ++ v := by
  constructor
  · rintro ⟨ws, e, h, rfl⟩
    cases ws with
    | nil => cases e
    | cons w ws =>
      exact ⟨w, ws.flatten, h w (by simp), ⟨ws, by simpa using e, fun v hv => h v (by simp [hv]), rfl⟩, rfl⟩
  · rintro ⟨u, v, hu, ⟨ws, e, h, rfl⟩, rfl⟩
    refine ⟨u :: ws, by simp [e], ?_, rfl⟩
    intro w hw
    rcases List.mem_cons.1 hw with rfl | hw
    · exact hu
    · exact h w hw

theorem Lang.times (n : Nat) {r t : Re} {L M : Str → Prop} (hr : Lang r L) (ht : Lang t M) :
    Lang (times n r t) (fun s => ∃ u v, Cat L n u ∧ M v ∧ s = u ++ v) := by
  induction n with
  | zero =>
    refine ht.congr (fun s => ?_)
    constructor
    · intro h; exact ⟨[], s, Cat.zero.2 rfl, h, rfl⟩
    · rintro ⟨u, v, hu, hv, rfl⟩; rw [Cat.zero.1 hu]; exact hv
  | succ n ih =>
    refine (hr.seq ih).congr (fun s => ?_)
    constructor
    · rintro ⟨u, w, hu, ⟨x, v, hx, hv, rfl⟩, rfl⟩
      exact ⟨u ++ x, v, Cat.succ.2 ⟨u, x, hu, hx, rfl⟩, hv, by simp⟩
    · rintro ⟨u, v, hu, hv, rfl⟩
      obtain ⟨a, b, ha, hb, rfl⟩ := Cat.succ.1 hu
      exact ⟨a, b ++ v, ha, ⟨b, v, hb, hv, rfl⟩, by simp⟩

theorem Lang.atMost (g : Bool) (n : Nat) {r : Re} {L : Str → Prop} (hr : Lang r L) :
    Lang (atMost g n r) (fun s => ∃ k, k ≤ n ∧ Cat L k s) := by
  induction n with
  | zero =>
    refine Lang.eps.congr (fun s => ?_)
    constructor
    · intro h; exact ⟨0, Nat.le_refl _, Cat.zero.2 h⟩
    · rintro ⟨k, hk, h⟩
      have : k = 0 := by omega
      subst this
      exact Cat.zero.1 h
  | succ n ih =>
    have h1 : ∀ s, (∃ k, k ≤ n + 1 ∧ Cat L k s) ↔ (∃ u v, L u ∧ (∃ k, k ≤ n ∧ Cat L k v) ∧ s = u ++ v) ∨ s = [] := by
      intro s
      constructor
      · rintro ⟨k, hk, h⟩
        cases k with
        | zero => exact Or.inr (Cat.zero.1 h)
        | succ k =>
          obtain ⟨u, v, hu, hv, rfl⟩ := Cat.succ.1 h
          exact Or.inl ⟨u, v, hu, ⟨k, by omega, hv⟩, rfl⟩
      · rintro (⟨u, v, hu, ⟨k, hk, hv⟩, rfl⟩ | rfl)
        · exact ⟨k + 1, by omega, Cat.succ.2 ⟨u, v, hu, hv, rfl⟩⟩
        · exact ⟨0, by omega, Cat.zero.2 rfl⟩
    unfold ReText.atMost
    cases g
    · exact (Lang.eps.alt (hr.seq ih)).congr (fun s => by rw [h1]; exact or_comm)
    · exact ((hr.seq ih).alt Lang.eps).congr (fun s => by rw [h1])

/-- characters of a class one after the other -/
theorem Cat.chars {P : Char → Prop} {n : Nat} {s : Str} : Cat (fun w => ∃ x, P x ∧ w = [x]) n s ↔ s.length = n ∧ ∀ x ∈ s, P x := by
  induction n generalizing s with
  | zero =>
    rw [Cat.zero]
    constructor
    · rintro rfl; exact ⟨rfl, by simp⟩
    · rintro ⟨h, _⟩; exact List.length_eq_zero_iff.1 h
  | succ n ih =>
    rw [Cat.succ]
    constructor
    · rintro ⟨u, v, ⟨x, hx, rfl⟩, hv, rfl⟩
      obtain ⟨h1, h2⟩ := ih.1 hv
      refine ⟨by simp [h1], ?_⟩
      intro y hy
      rcases List.mem_cons.1 hy with rfl | hy
      · exact hx
      · exact h2 y hy
    · rintro ⟨h1, h2⟩
      cases s with
      | nil => cases h1
      | cons c s => exact ⟨[c], s, ⟨c, h2 c (by simp), rfl⟩, ih.2 ⟨by simpa using h1, fun x hx => h2 x (by simp [hx])⟩, rfl⟩

/-- `[..]{lo,hi}` -/
theorem Lang.count (g : Bool) (lo k : Nat) (c : CC) {P : Char → Prop} (hP : ∀ x, c.test x = true ↔ P x) :
    Lang (ReText.times lo (.cls c) (ReText.atMost g k (.cls c))) (fun s => lo ≤ s.length ∧ s.length ≤ lo + k ∧ ∀ x ∈ s, P x) := by
  have hc : Lang (.cls c) (fun s => ∃ x, P x ∧ s = [x]) := (Lang.cls c).congr (fun s => by simp only [hP])
  refine (hc.times lo (hc.atMost g k)).congr (fun s => ?_)
  constructor
  · rintro ⟨u, v, hu, ⟨j, hj, hv⟩, rfl⟩
    obtain ⟨h1, h2⟩ := Cat.chars.1 hu
    obtain ⟨h3, h4⟩ := Cat.chars.1 hv
    refine ⟨by simp; omega, by simp; omega, ?_⟩
    intro x hx
    rcases List.mem_append.1 hx with hx | hx
    · exact h2 x hx
    · exact h4 x hx
  · rintro ⟨h1, h2, h3⟩
    refine ⟨s.take lo, s.drop lo, Cat.chars.2 ⟨by simp; omega, fun x hx => h3 x (List.mem_of_mem_take hx)⟩,
      ⟨(s.drop lo).length, by simp; omega, Cat.chars.2 ⟨rfl, fun x hx => h3 x (List.mem_of_mem_drop hx)⟩⟩, (List.take_append_drop lo s).symm⟩

theorem Lang.plusCls (g : Bool) (c : CC) : Lang (Re.plus g (.cls c)) (fun s => s ≠ [] ∧ ∀ x ∈ s, c.test x = true) := by
  intro s h
  rw [mem_plus_cls, and_assoc]

theorem Lang.lit (c : Char) : Lang (.cls (.lit c)) (· = [c]) :=
  (Lang.cls _).congr (fun s => by
    constructor
    · rintro ⟨x, hx, rfl⟩
      have : c = x := by simpa [CC.test] using hx
      rw [this]
    · rintro rfl; exact ⟨c, by simp [CC.test], rfl⟩)

theorem Lang.seqEps {a : Re} {L : Str → Prop} (h : Lang a L) : Lang (.seq a .eps) L := by
  intro s x; rw [run_seq_eps]; exact h s x

/-- `re.fullmatch` -/
theorem Lang.full {p : Str} {r : Re} {L : Str → Prop} (hc : compile p = some r) (h : Lang r L) (s : Str) : FullMatch p s ↔ L s := by
  constructor
  · rintro ⟨r', e, x, hx, rfl⟩
    rw [hc] at e; cases e
    exact ((h _ _).1 hx).1
  · intro hl
    exact ⟨r, hc, (s, [], []), (h _ _).2 ⟨hl, by simp, rfl⟩, rfl⟩

end TTP
