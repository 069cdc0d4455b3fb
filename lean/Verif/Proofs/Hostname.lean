import Verif.Proofs.Headers
import Verif.Proofs.Regex
import Verif.Spec.Hostname
/-! # Lemmas: prompts -/

namespace TTP
open Py Spec Re InputFn

/-! ## Pieces of an expression inside a line -/

/-- splits of a text with the first part in a class, longest first -/
def takes (c : CC) : Str → List (Str × Str)
  | [] => [([], [])]
  | x :: y => if c.test x then (takes c y).map (fun q => (x :: q.1, q.2)) ++ [([], x :: y)] else [([], x :: y)]

/-- hits of splits -/
def hitsOf (rest : Str) (L : List (Str × Str)) : List Re.Hit := L.map (fun q => (q.1, q.2 ++ '\n' :: rest, []))

/-- an expression without groups whose matches inside a line are the splits with `P`, tried in the order `lt` of lengths -/
def Bit (a : Re) (P : Str → Prop) (lt : Nat → Nat → Prop) : Prop :=
  ∀ y, '\n' ∉ y → ∃ L : List (Str × Str), (∀ rest, run a (y ++ '\n' :: rest) = hitsOf rest L) ∧
    (∀ p q, (p, q) ∈ L ↔ y = p ++ q ∧ P p) ∧ L.Pairwise (fun u v => lt u.1.length v.1.length)

/-- an expression that matches rests of lines, `f` gives the groups -/
def Sem (b : Re) (f : Str → Option Caps) : Prop :=
  ∀ y rest, '\n' ∉ y → (run b (y ++ '\n' :: rest)).head? = (f y).map (fun c => (y, '\n' :: rest, c))

theorem takes_mem (c : CC) (y p q : Str) : (p, q) ∈ takes c y ↔ y = p ++ q ∧ ∀ x ∈ p, c.test x = true := by
  induction y generalizing p with
  | nil =>
    simp only [takes, List.mem_singleton, Prod.mk.injEq]
    constructor
    · rintro ⟨rfl, rfl⟩; simp
    · rintro ⟨h, _⟩
      have := List.append_eq_nil_iff.1 h.symm
      exact this
  | cons x y ih =>
    rw [takes]
    split
    next hx =>
      simp only [List.mem_append, List.mem_map, Prod.mk.injEq, List.mem_singleton]
      constructor
      · rintro (⟨⟨p', q'⟩, hm, rfl, rfl⟩ | ⟨rfl, rfl⟩)
        · obtain ⟨e, ha⟩ := (ih p').1 hm
          refine ⟨by simp [e], ?_⟩
          intro z hz
          rcases List.mem_cons.1 hz with rfl | hz
          · exact hx
          · exact ha z hz
        · simp
      · rintro ⟨e, ha⟩
        cases p with
        | nil => right; exact ⟨rfl, by simpa using e.symm⟩
        | cons z p =>
          simp only [List.cons_append, List.cons.injEq] at e
          left
          exact ⟨(p, q), (ih p).2 ⟨e.2, fun w hw => ha w (by simp [hw])⟩, by rw [e.1], rfl⟩
    next hx =>
      simp only [List.mem_singleton, Prod.mk.injEq]
      constructor
      · rintro ⟨rfl, rfl⟩; simp
      · rintro ⟨e, ha⟩
        cases p with
        | nil => exact ⟨rfl, by simpa using e.symm⟩
        | cons z p =>
          simp only [List.cons_append, List.cons.injEq] at e
          exact absurd (ha z (by simp)) (by rw [← e.1]; exact hx)

theorem takes_sorted (c : CC) (y : Str) : (takes c y).Pairwise (fun u v => v.1.length < u.1.length) := by
  induction y with
  | nil => simp [takes]
  | cons x y ih =>
    rw [takes]
    split
    · rw [List.pairwise_append]
      refine ⟨?_, by simp, ?_⟩
      · rw [List.pairwise_map]
        exact ih.imp (by intro a b h; simpa using h)
      · simp only [List.mem_map, List.mem_singleton]
        rintro a ⟨q, _, rfl⟩ b rfl
        simp
    · simp

theorem starRun_takes (c : CC) (hc : c.test '\n' = false) (g : Bool) (y rest : Str) (k : Nat) (hk : y.length ≤ k) :
    starRun (run (.cls c)) g k (y ++ '\n' :: rest) = hitsOf rest (if g then takes c y else (takes c y).reverse) := by
  induction y generalizing k with
  | nil =>
    cases k with
    | zero => cases g <;> simp [starRun, takes, hitsOf]
    | succ k => cases g <;> simp [starRun, run, hc, takes, hitsOf]
  | cons x y ih =>
    cases k with
    | zero => simp at hk
    | succ k =>
      have ih := ih k (by simpa using hk)
      rw [starRun, takes]
      by_cases hx : c.test x = true
      · have hrun : run (.cls c) (x :: y ++ '\n' :: rest) = [([x], y ++ '\n' :: rest, [])] := by simp [run, hx]
        rw [hrun]
        simp only [List.filter_cons, List.isEmpty_cons, Bool.not_false, if_true, List.filter_nil, List.flatMap_cons, List.flatMap_nil,
          List.append_nil, ih, hx]
        cases g <;> simp [hitsOf, Function.comp_def]
      · have hrun : run (.cls c) (x :: y ++ '\n' :: rest) = [] := by simp [run, hx]
        rw [hrun]
        cases g <;> simp [hitsOf, hx]

theorem bit_star (c : CC) (hc : c.test '\n' = false) (g : Bool) :
    Bit (.star g (.cls c)) (fun p => ∀ x ∈ p, c.test x = true) (fun a b => if g then b < a else a < b) := by
  intro y hy
  refine ⟨if g then takes c y else (takes c y).reverse, ?_, ?_, ?_⟩
  · intro rest
    rw [run]
    exact starRun_takes c hc g y rest _ (by simp)
  · intro p q
    cases g <;> simp [takes_mem]
  · cases g
    · simp only [Bool.false_eq_true, if_false]
      rw [List.pairwise_reverse]
      exact takes_sorted c y
    · simp only [if_true]
      exact takes_sorted c y

theorem bit_cls (c : CC) (hc : c.test '\n' = false) (lt : Nat → Nat → Prop) : Bit (.cls c) (fun p => ∃ x, p = [x] ∧ c.test x = true) lt := by
  intro y hy
  cases y with
  | nil =>
    refine ⟨[], fun rest => by simp [run, hc, hitsOf], ?_, by simp⟩
    intro p q
    simp only [List.not_mem_nil, false_iff]
    rintro ⟨e, x, rfl, _⟩
    cases e
  | cons x y =>
    by_cases hx : c.test x = true
    · refine ⟨[([x], y)], fun rest => by simp [run, hx, hitsOf], ?_, by simp⟩
      intro p q
      simp only [List.mem_singleton, Prod.mk.injEq]
      constructor
      · rintro ⟨rfl, rfl⟩; exact ⟨rfl, x, rfl, hx⟩
      · rintro ⟨e, z, rfl, hz⟩
        simp only [List.cons_append, List.nil_append, List.cons.injEq] at e
        exact ⟨by rw [e.1], e.2.symm⟩
    · refine ⟨[], fun rest => by simp [run, hx, hitsOf], ?_, by simp⟩
      intro p q
      simp only [List.not_mem_nil, false_iff]
      rintro ⟨e, z, rfl, hz⟩
      simp only [List.cons_append, List.nil_append, List.cons.injEq] at e
      rw [e.1] at hx
      exact hx hz

theorem flatMap_same {α β : Type} (l : List α) (f g : α → List β) (h : ∀ a ∈ l, f a = g a) : l.flatMap f = l.flatMap g := by
  induction l with
  | nil => rfl
  | cons a l ih => rw [List.flatMap_cons, List.flatMap_cons, h a (by simp), ih (fun b hb => h b (by simp [hb]))]

/-- two pieces after each other, when at most one split for the first one lets the second one match, or lengths of the first decide -/
theorem bit_seq (a b : Re) (P Q : Str → Prop) (lt : Nat → Nat → Prop) (lt1 : Nat → Nat → Prop) (ha : Bit a P lt1) (hb : Bit b Q lt)
    (hlt : ∀ n m k, lt n m → lt (k + n) (k + m)) (hirr : ∀ n, ¬ lt1 n n)
    (hu : ∀ p q p' q', P p → P p' → p ++ q = p' ++ q' → (∃ z w, q = z ++ w ∧ Q z) → (∃ z w, q' = z ++ w ∧ Q z) → p = p') :
    Bit (.seq a b) (fun z => ∃ p q, z = p ++ q ∧ P p ∧ Q q) lt := by
  intro y hy
  obtain ⟨L, hL, hm, hs⟩ := ha y hy
  have hch : ∀ q, ∃ M : List (Str × Str), '\n' ∉ q → (∀ rest, run b (q ++ '\n' :: rest) = hitsOf rest M) ∧
    (∀ p' q', (p', q') ∈ M ↔ q = p' ++ q' ∧ Q p') ∧ M.Pairwise (fun u v => lt u.1.length v.1.length) := by
    intro q
    by_cases hq : '\n' ∈ q
    · exact ⟨[], fun h => absurd hq h⟩
    · obtain ⟨M, hM⟩ := hb q hq
      exact ⟨M, fun _ => hM⟩
  obtain ⟨M, hM⟩ := Classical.axiomOfChoice hch
  have hnl : ∀ u ∈ L, '\n' ∉ u.2 := by
    intro u hu' hn
    have := (hm u.1 u.2).1 hu'
    exact hy (by rw [this.1]; simp [hn])
  refine ⟨L.flatMap (fun u => (M u.2).map (fun v => (u.1 ++ v.1, v.2))), ?_, ?_, ?_⟩
  · intro rest
    simp only [run, hL, hitsOf, List.flatMap_map, List.map_flatMap, List.map_map]
    refine flatMap_same _ _ _ ?_
    intro u hu'
    rw [(hM u.2 (hnl u hu')).1]
    simp [hitsOf, Function.comp_def]
  · intro p q
    simp only [List.mem_flatMap, List.mem_map, Prod.mk.injEq]
    constructor
    · rintro ⟨u, hu', v, hv, rfl, rfl⟩
      have h1 := (hm u.1 u.2).1 hu'
      have h2 := ((hM u.2 (hnl u hu')).2.1 v.1 v.2).1 hv
      exact ⟨by rw [h1.1, h2.1]; simp, u.1, v.1, rfl, h1.2, h2.2⟩
    · rintro ⟨e, p1, p2, rfl, h1, h2⟩
      have hu' : (p1, p2 ++ q) ∈ L := (hm _ _).2 ⟨by rw [e]; simp, h1⟩
      exact ⟨(p1, p2 ++ q), hu', (p2, q), ((hM _ (hnl _ hu')).2.1 _ _).2 ⟨rfl, h2⟩, rfl, rfl⟩
  · rw [List.pairwise_flatMap]
    constructor
    · intro u hu'
      rw [List.pairwise_map]
      exact (hM u.2 (hnl u hu')).2.2.imp (by intro x z h; simpa using hlt _ _ u.1.length h)
    · refine List.Pairwise.imp_of_mem ?_ hs
      intro u v hu1 hv1 hlt1 x hx z hz
      exfalso
      simp only [List.mem_map] at hx hz
      obtain ⟨x', hx', _⟩ := hx
      obtain ⟨z', hz', _⟩ := hz
      have a1 := (hm u.1 u.2).1 hu1
      have a2 := (hm v.1 v.2).1 hv1
      have b1 := ((hM u.2 (hnl u hu1)).2.1 x'.1 x'.2).1 hx'
      have b2 := ((hM v.2 (hnl v hv1)).2.1 z'.1 z'.2).1 hz'
      have := hu u.1 u.2 v.1 v.2 a1.2 a2.2 (by rw [← a1.1, ← a2.1]) ⟨_, _, b1.1, b1.2⟩ ⟨_, _, b2.1, b2.2⟩
      rw [this] at hlt1
      exact hirr _ hlt1

/-! ## Sequences -/

theorem findSome_sorted {β : Type} (L : List (Str × Str)) (lt : Nat → Nat → Prop) (hs : L.Pairwise (fun u v => lt u.1.length v.1.length))
    (hasym : ∀ n m, lt n m → ¬ lt m n) (g : Str × Str → Option β) (c : β)
    (huniq : ∀ u ∈ L, ∀ v ∈ L, u.1.length = v.1.length → u = v) :
    L.findSome? g = some c ↔ ∃ u ∈ L, g u = some c ∧ ∀ v ∈ L, lt v.1.length u.1.length → g v = none := by
  induction L with
  | nil => simp
  | cons w L ih =>
    rw [List.pairwise_cons] at hs
    have ih := ih hs.2 (fun u hu v hv => huniq u (by simp [hu]) v (by simp [hv]))
    rw [List.findSome?_cons]
    cases hw : g w with
    | some d =>
      constructor
      · intro h
        refine ⟨w, by simp, by simpa [hw] using h, ?_⟩
        intro v hv hlt
        rcases List.mem_cons.1 hv with rfl | hv
        · exact absurd hlt (fun h => hasym _ _ h h)
        · exact absurd (hs.1 v hv) (hasym _ _ hlt)
      · rintro ⟨u, hu, hg, hall⟩
        rcases List.mem_cons.1 hu with rfl | hu
        · rw [← hg, hw]
        · have := hall w (by simp) (hs.1 u hu)
          rw [hw] at this; cases this
    | none =>
      show L.findSome? g = some c ↔ _
      rw [ih]
      constructor
      · rintro ⟨u, hu, hg, hall⟩
        refine ⟨u, by simp [hu], hg, ?_⟩
        intro v hv hlt
        rcases List.mem_cons.1 hv with rfl | hv
        · exact hw
        · exact hall v hv hlt
      · rintro ⟨u, hu, hg, hall⟩
        rcases List.mem_cons.1 hu with rfl | hu
        · rw [hw] at hg; cases hg
        · exact ⟨u, hu, hg, fun v hv => hall v (by simp [hv])⟩

/-- what a piece and the expression after it find -/
def Found (P : Str → Prop) (lt : Nat → Nat → Prop) (f : Str → Option Caps) (k : Str → Caps) (y : Str) (c : Caps) : Prop :=
  ∃ p q c0, y = p ++ q ∧ P p ∧ f q = some c0 ∧ c = k p ++ c0 ∧
    ∀ p' q', y = p' ++ q' → P p' → lt p'.length p.length → f q' = none

theorem sem_gen (a b : Re) (P : Str → Prop) (lt : Nat → Nat → Prop) (hasym : ∀ n m, lt n m → ¬ lt m n) (k : Str → Caps)
    (ha : ∀ y, '\n' ∉ y → ∃ L : List (Str × Str), (∀ rest, run a (y ++ '\n' :: rest) = L.map (fun q => (q.1, q.2 ++ '\n' :: rest, k q.1))) ∧
      (∀ p q, (p, q) ∈ L ↔ y = p ++ q ∧ P p) ∧ L.Pairwise (fun u v => lt u.1.length v.1.length))
    (f : Str → Option Caps) (hb : Sem b f) :
    ∃ f', Sem (.seq a b) f' ∧ ∀ y c, '\n' ∉ y → (f' y = some c ↔ Found P lt f k y c) ∧
      (f' y = none ↔ ∀ p q, y = p ++ q → P p → f q = none) := by
  have hch : ∀ y, ∃ L : List (Str × Str), '\n' ∉ y → (∀ rest, run a (y ++ '\n' :: rest) = L.map (fun q => (q.1, q.2 ++ '\n' :: rest, k q.1))) ∧
      (∀ p q, (p, q) ∈ L ↔ y = p ++ q ∧ P p) ∧ L.Pairwise (fun u v => lt u.1.length v.1.length) := by
    intro y
    by_cases hy : '\n' ∈ y
    · exact ⟨[], fun h => absurd hy h⟩
    · obtain ⟨L, hL⟩ := ha y hy
      exact ⟨L, fun _ => hL⟩
  obtain ⟨L, hL⟩ := Classical.axiomOfChoice hch
  refine ⟨fun y => (L y).findSome? (fun q => (f q.2).map (k q.1 ++ ·)), ?_, ?_⟩
  · intro y rest hy
    have h1 := (hL y hy).1 rest
    have h2 := (hL y hy).2.1
    simp only [run, h1, List.flatMap_map]
    generalize L y = M at h2
    have hM : ∀ u ∈ M, y = u.1 ++ u.2 := fun u hu => ((h2 u.1 u.2).1 hu).1
    clear h2 h1
    induction M with
    | nil => simp
    | cons u M ih =>
      have hyu := hM u (by simp)
      have hq : '\n' ∉ u.2 := fun h => hy (by rw [hyu]; simp [h])
      rw [List.flatMap_cons, List.findSome?_cons, List.head?_append, List.head?_map, hb u.2 rest hq]
      cases hf : f u.2 with
      | none =>
        simp only [Option.map_none, Option.none_or]
        exact ih (fun v hv => hM v (by simp [hv]))
      | some c => simp [← hyu]
  · intro y c hy
    obtain ⟨_, hm, hs⟩ := hL y hy
    refine ⟨?_, ?_⟩
    rotate_left
    · rw [List.findSome?_eq_none_iff]
      constructor
      · intro h p q e hP
        simpa using h (p, q) ((hm _ _).2 ⟨e, hP⟩)
      · intro h u hu
        have := (hm u.1 u.2).1 hu
        simp [h u.1 u.2 this.1 this.2]
    rw [findSome_sorted (L y) lt hs hasym _ c]
    · constructor
      · rintro ⟨u, hu, hg, hall⟩
        obtain ⟨c0, h0, h1⟩ := Option.map_eq_some_iff.1 hg
        have := (hm u.1 u.2).1 hu
        refine ⟨u.1, u.2, c0, this.1, this.2, h0, h1.symm, ?_⟩
        intro p' q' e hP hl
        have := hall (p', q') ((hm _ _).2 ⟨e, hP⟩) hl
        simpa using this
      · rintro ⟨p, q, c0, e, hP, h0, rfl, hall⟩
        refine ⟨(p, q), (hm _ _).2 ⟨e, hP⟩, by simp [h0], ?_⟩
        intro v hv hl
        have := (hm v.1 v.2).1 hv
        simp [hall v.1 v.2 this.1 this.2 hl]
    · intro u hu v hv hlen
      have h1 := ((hm u.1 u.2).1 hu).1
      have h2 := ((hm v.1 v.2).1 hv).1
      obtain ⟨a1, a2⟩ := List.append_inj (h1.symm.trans h2) hlen
      exact Prod.ext a1 a2

theorem sem_seq (a b : Re) (P : Str → Prop) (lt : Nat → Nat → Prop) (hasym : ∀ n m, lt n m → ¬ lt m n)
    (ha : Bit a P lt) (f : Str → Option Caps) (hb : Sem b f) :
    ∃ f', Sem (.seq a b) f' ∧ ∀ y c, '\n' ∉ y → (f' y = some c ↔ Found P lt f (fun _ => []) y c) ∧
      (f' y = none ↔ ∀ p q, y = p ++ q → P p → f q = none) :=
  sem_gen a b P lt hasym (fun _ => []) ha f hb

theorem sem_cap (n : Str) (a b : Re) (P : Str → Prop) (lt : Nat → Nat → Prop) (hasym : ∀ n m, lt n m → ¬ lt m n)
    (ha : Bit a P lt) (f : Str → Option Caps) (hb : Sem b f) :
    ∃ f', Sem (.seq (.cap n a) b) f' ∧ ∀ y c, '\n' ∉ y → (f' y = some c ↔ Found P lt f (fun p => [(n, p)]) y c) ∧
      (f' y = none ↔ ∀ p q, y = p ++ q → P p → f q = none) := by
  apply sem_gen _ b P lt hasym _ _ f hb
  intro y hy
  obtain ⟨L, h1, h2, h3⟩ := ha y hy
  refine ⟨L, ?_, h2, h3⟩
  intro rest
  simp [run, h1, hitsOf, Function.comp_def]

/-- one character -/
theorem sem_chr (c : CC) (hc : c.test '\n' = false) (b : Re) (f : Str → Option Caps) (hb : Sem b f) :
    Sem (.seq (.cls c) b) (fun y => match y with
      | [] => none
      | x :: y => if c.test x then f y else none) := by
  intro y rest hy
  cases y with
  | nil => simp [run, hc]
  | cons x y =>
    have hy' : '\n' ∉ y := fun h => hy (by simp [h])
    simp only [List.cons_append, run]
    by_cases hx : c.test x = true
    · simp only [hx, if_true, List.flatMap_cons, List.flatMap_nil, List.append_nil, List.head?_map, hb y rest hy', Option.map_map]
      cases f y <;> simp
    · simp [hx]

theorem sem_tail : Sem tail (fun _ => some []) := by
  intro y rest hy
  have h1 := first_star y rest hy
  have h2 : (run (.look (.cls (.lit '\n'))) ('\n' :: rest)).head? = some ([], '\n' :: rest, []) := by simp [run, CC.test]
  have := first_seq _ _ _ _ _ h1 h2
  simpa [tail] using this

/-! ## Prompts -/

/-- the order in which lengths are tried -/
def ord (g : Bool) (a b : Nat) : Prop := if g then b < a else a < b

theorem ord_asymm (g : Bool) (n m : Nat) (h : ord g n m) : ¬ ord g m n := by
  cases g <;> simp only [ord, if_true, if_false, Bool.false_eq_true] at * <;> omega

theorem ord_add (g : Bool) (n m k : Nat) (h : ord g n m) : ord g (k + n) (k + m) := by
  cases g <;> simp only [ord, if_true, if_false, Bool.false_eq_true] at * <;> omega

theorem bit_congr {a : Re} {P Q : Str → Prop} {lt : Nat → Nat → Prop} (h : Bit a P lt) (e : ∀ p, P p ↔ Q p) : Bit a Q lt := by
  intro y hy
  obtain ⟨L, h1, h2, h3⟩ := h y hy
  exact ⟨L, h1, fun p q => by rw [h2, e], h3⟩

theorem nspace_iff (p : Str) : (∀ x ∈ p, CC.nspace.test x = true) ↔ Blankless p := by simp [CC.test, Blankless]

theorem bit_word (g : Bool) : Bit (word g) (fun p => Blankless p ∧ p ≠ []) (ord g) := by
  have h := bit_seq _ _ _ _ _ (fun a b => a < b) (bit_cls .nspace (by decide) (fun a b => a < b)) (bit_star .nspace (by decide) g)
    (ord_add g) (fun n => Nat.lt_irrefl n) (by
      rintro p q p' q' ⟨x, rfl, _⟩ ⟨x', rfl, _⟩ e _ _
      simp only [List.cons_append, List.nil_append, List.cons.injEq] at e
      rw [e.1])
  refine bit_congr h ?_
  intro p
  constructor
  · rintro ⟨p, q, rfl, ⟨x, rfl, hx⟩, hq⟩
    refine ⟨?_, by simp⟩
    rw [← nspace_iff]
    intro z hz
    rcases List.mem_append.1 hz with hz | hz
    · rw [List.mem_singleton.1 hz]; exact hx
    · exact hq z hz
  · rintro ⟨hb, hne⟩
    rw [← nspace_iff] at hb
    cases p with
    | nil => exact absurd rfl hne
    | cons x p => exact ⟨[x], p, rfl, ⟨x, rfl, hb x (by simp)⟩, fun z hz => hb z (by simp [hz])⟩

/-- a name before a character -/
def NameRead (c : CC) (y h : Str) : Prop := Blankless h ∧ h ≠ [] ∧ ∃ x r, c.test x = true ∧ y = h ++ x :: r

/-- the name that is tried first -/
def NameBest (g : Bool) (c : CC) (y h : Str) : Prop := NameRead c y h ∧ ∀ h', NameRead c y h' → ¬ ord g h'.length h.length

/-- name and rest of the line -/
def nameRe (g : Bool) (c : CC) : Re := .seq (.cap hostGroup (word g)) (.seq (.cls c) tail)

theorem sem_chr_iff (c : CC) (hc : c.test '\n' = false) (b : Re) (f : Str → Option Caps) (hb : Sem b f) :
    ∃ f', Sem (.seq (.cls c) b) f' ∧ (∀ y k, f' y = some k ↔ ∃ x r, y = x :: r ∧ c.test x = true ∧ f r = some k) ∧
      (∀ y, f' y = none ↔ ∀ x r, y = x :: r → c.test x = true → f r = none) := by
  refine ⟨_, sem_chr c hc b f hb, ?_, ?_⟩
  · intro y k
    cases y with
    | nil => simp
    | cons x y =>
      by_cases hx : c.test x = true
      · simp only [hx, if_true]
        constructor
        · intro h; exact ⟨x, y, rfl, hx, h⟩
        · rintro ⟨x', r, e, _, h⟩; cases e; exact h
      · simp only [hx, if_false, Bool.false_eq_true]
        constructor
        · intro h; cases h
        · rintro ⟨x', r, e, h1, _⟩; cases e; exact absurd h1 hx
  · intro y
    cases y with
    | nil => simp
    | cons x y =>
      by_cases hx : c.test x = true
      · simp only [hx, if_true]
        constructor
        · intro h x' r e _; cases e; exact h
        · intro h; exact h x y rfl hx
      · simp only [hx, if_false, true_iff, Bool.false_eq_true]
        intro x' r e h1; cases e; exact absurd h1 hx

theorem sem_name (g : Bool) (c : CC) (hc : c.test '\n' = false) :
    ∃ f, Sem (nameRe g c) f ∧ ∀ y, '\n' ∉ y → (∀ k, f y = some k ↔ ∃ h, NameBest g c y h ∧ k = [(hostGroup, h)]) ∧
      (f y = none ↔ ∀ h, ¬ NameRead c y h) := by
  obtain ⟨f1, s1, h1, n1⟩ := sem_chr_iff c hc tail _ sem_tail
  obtain ⟨f2, s2, h2⟩ := sem_cap hostGroup (word g) _ _ (ord g) (ord_asymm g) (bit_word g) f1 s1
  have hnone : ∀ q, f1 q = none ↔ ∀ x r, q = x :: r → c.test x = false := by
    intro q
    rw [n1]
    simp
  refine ⟨f2, s2, ?_⟩
  intro y hy
  refine ⟨?_, ?_⟩
  · intro k
    rw [(h2 y k hy).1]
    constructor
    · rintro ⟨p, q, c0, rfl, hP, h0, rfl, hall⟩
      obtain ⟨x, r, rfl, hx, e⟩ := (h1 _ _).1 h0
      refine ⟨p, ⟨⟨hP.1, hP.2, x, r, hx, rfl⟩, ?_⟩, ?_⟩
      · rintro h' ⟨b1, b2, x', r', hx', e'⟩ hl
        have := (hnone _).1 (hall h' (x' :: r') e' ⟨b1, b2⟩ hl) x' r' rfl
        rw [hx'] at this; cases this
      · cases e; simp
    · rintro ⟨h, ⟨⟨b1, b2, x, r, hx, rfl⟩, hall⟩, rfl⟩
      refine ⟨h, x :: r, [], rfl, ⟨b1, b2⟩, (h1 _ _).2 ⟨x, r, rfl, hx, rfl⟩, by simp, ?_⟩
      intro p' q' e hP hl
      rw [hnone]
      rintro x' r' rfl
      cases hx' : c.test x' with
      | false => rfl
      | true => exact absurd hl (hall p' ⟨hP.1, hP.2, x', r', hx', e⟩)
  · rw [(h2 y [] hy).2]
    constructor
    · rintro h h' ⟨b1, b2, x, r, hx, e⟩
      have := (hnone _).1 (h h' (x :: r) e ⟨b1, b2⟩) x r rfl
      rw [hx] at this; cases this
    · intro h p q e hP
      rw [hnone]
      rintro x r rfl
      cases hx : c.test x with
      | false => rfl
      | true => exact absurd ⟨hP.1, hP.2, x, r, hx, e⟩ (h p)

/-- something before a character, then the name -/
theorem sem_prefixed (a : Re) (P : Str → Prop) (ha : Bit a P (ord true)) (ch : Char) (hch : ch ≠ '\n') (g : Bool) (c : CC)
    (hc : c.test '\n' = false) :
    ∃ f, Sem (.seq a (.seq (.cls (.lit ch)) (nameRe g c))) f ∧ ∀ y, '\n' ∉ y → ∀ k, f y = some k ↔
      ∃ p q h, y = p ++ ch :: q ∧ P p ∧ NameBest g c q h ∧ k = [(hostGroup, h)] ∧
        ∀ p' q' h', y = p' ++ ch :: q' → P p' → p.length < p'.length → ¬ NameRead c q' h' := by
  obtain ⟨f0, s0, h0⟩ := sem_name g c hc
  obtain ⟨f1, s1, h1, n1⟩ := sem_chr_iff (.lit ch) (by simpa [CC.test] using hch) _ _ s0
  obtain ⟨f2, s2, h2⟩ := sem_seq a _ P (ord true) (ord_asymm true) ha f1 s1
  refine ⟨f2, s2, ?_⟩
  intro y hy k
  have hsuf : ∀ p x q, y = p ++ x :: q → '\n' ∉ q := fun p x q e h => hy (by rw [e]; simp [h])
  rw [(h2 y k hy).1]
  constructor
  · rintro ⟨p, q, c0, e, hP, e0, rfl, hall⟩
    obtain ⟨x, r, rfl, hx, e1⟩ := (h1 _ _).1 e0
    simp only [CC.test, beq_iff_eq] at hx
    subst hx
    obtain ⟨h, hb, rfl⟩ := ((h0 r (hsuf _ _ _ e)).1 _).1 e1
    refine ⟨p, r, h, e, hP, hb, by simp, ?_⟩
    intro p' q' h' e' hP' hl hr
    have := hall p' _ e' hP' (by simpa [ord] using hl)
    rw [n1] at this
    exact ((h0 q' (hsuf _ _ _ e')).2.1 (this ch q' rfl (by simp [CC.test]))) h' hr
  · rintro ⟨p, q, h, e, hP, hb, rfl, hall⟩
    refine ⟨p, ch :: q, _, e, hP, (h1 _ _).2 ⟨ch, q, rfl, by simp [CC.test], ((h0 q (hsuf _ _ _ e)).1 _).2 ⟨h, hb, rfl⟩⟩, by simp, ?_⟩
    intro p' q' e' hP' hl
    rw [n1]
    rintro x r rfl hx
    simp only [CC.test, beq_iff_eq] at hx
    subst hx
    rw [(h0 r (hsuf _ _ _ e')).2]
    intro h' hr
    exact hall p' r h' e' hP' (by simpa [ord] using hl) hr

/-- a line expression -/
theorem oneLine_of (b : Re) (f : Str → Option Caps) (hb : Sem b f) (he : run b [] = []) : OneLine (.seq (.cls (.lit '\n')) b) f := by
  refine ⟨?_, ?_, ?_, ?_⟩
  · intro t rest ht
    have := hb t rest ht
    simp only [run, CC.test, beq_self_eq_true, if_true, List.flatMap_cons, List.flatMap_nil, List.append_nil, List.head?_map, this]
    cases f t <;> simp
  · intro c s hc
    have : ('\n' == c) = false := by simpa using fun e => hc e.symm
    simp [run, CC.test, this]
  · simp [run, CC.test, he]
  · simp [run]

/-- expression of a kind -/
def reOf : Prompt → Re
  | .sros => sros
  | .xr => iosXr
  | .priv => iosPriv
  | .juniper => juniper
  | .huawei => huawei
  | .exec => iosExec
  | .forti => fortigate

/-- the expression of a kind finds the prompts of the kind -/
def FindsKind (k : Prompt) : Prop :=
  ∃ f, OneLine (reOf k) f ∧ ∀ t, '\n' ∉ t → ∀ c, f t = some c ↔ ∃ h, PromptOf k t h ∧ c = [(hostGroup, h)]

theorem finds_prefixed (k : Prompt) (a : Re) (P : Str → Prop) (ha : Bit a P (ord true)) (ch : Char) (hch : ch ≠ '\n') (g : Bool) (c : CC)
    (hc : c.test '\n' = false) (hre : reOf k = .seq (.cls (.lit '\n')) (.seq a (.seq (.cls (.lit ch)) (nameRe g c))))
    (he : run (.seq a (.seq (.cls (.lit ch)) (nameRe g c))) [] = []) (hg : k = .sros ↔ g = false)
    (hR : ∀ t p h, Reading k t p h ↔ P p ∧ ∃ q, t = p ++ ch :: q ∧ NameRead c q h) : FindsKind k := by
  obtain ⟨f, s, hf⟩ := sem_prefixed a P ha ch hch g c hc
  refine ⟨f, by rw [hre]; exact oneLine_of _ f s he, ?_⟩
  intro t ht k'
  rw [hf t ht]
  have hord : ∀ h h' : Str, (if k = .sros then h.length < h'.length else h'.length < h.length) ↔ ord g h.length h'.length := by
    intro h h'
    cases g
    · simp [ord, hg.2 rfl]
    · have : k ≠ .sros := by intro e; simpa using hg.1 e
      simp [ord, this]
  constructor
  · rintro ⟨p, q, h, e, hP, hb, rfl, hall⟩
    refine ⟨h, ⟨p, (hR _ _ _).2 ⟨hP, q, e, hb.1⟩, ?_⟩, rfl⟩
    intro p' h' hr hbt
    obtain ⟨hP', q', e', hn⟩ := (hR _ _ _).1 hr
    rcases hbt with hl | ⟨hl, ho⟩
    · exact hall p' q' h' e' hP' hl hn
    · rw [hord] at ho
      obtain ⟨a1, a2⟩ := List.append_inj (e.symm.trans e') hl
      cases a2
      exact hb.2 h' hn ho
  · rintro ⟨h, ⟨p, hr, hall⟩, rfl⟩
    obtain ⟨hP, q, e, hn⟩ := (hR _ _ _).1 hr
    refine ⟨p, q, h, e, hP, ⟨hn, ?_⟩, rfl, ?_⟩
    · intro h' hn' ho
      exact hall p h' ((hR _ _ _).2 ⟨hP, q, e, hn'⟩) (Or.inr ⟨rfl, by rw [hord]; exact ho⟩)
    · intro p' q' h' e' hP' hl hn'
      exact hall p' h' ((hR _ _ _).2 ⟨hP', q', e', hn'⟩) (Or.inl hl)

theorem finds_single (k : Prompt) (b : Re) (f : Str → Option Caps) (hb : Sem b f) (he : run b [] = [])
    (R : Str → Str → Prop) (hf : ∀ y, '\n' ∉ y → ∀ c, f y = some c ↔ ∃ h, (R y h ∧ ∀ h', R y h' → ¬ h.length < h'.length) ∧ c = [(hostGroup, h)])
    (hre : reOf k = .seq (.cls (.lit '\n')) b) (hk : k ≠ .sros)
    (hR : ∀ t p h, Reading k t p h ↔ p = [] ∧ R t h) : FindsKind k := by
  refine ⟨f, by rw [hre]; exact oneLine_of _ f hb he, ?_⟩
  intro t ht c
  rw [hf t ht]
  constructor
  · rintro ⟨h, ⟨hr, hall⟩, rfl⟩
    refine ⟨h, ⟨[], (hR _ _ _).2 ⟨rfl, hr⟩, ?_⟩, rfl⟩
    intro p' h' hr' hbt
    obtain ⟨rfl, hr2⟩ := (hR _ _ _).1 hr'
    simp only [Better, hk, if_false, List.length_nil, Nat.lt_irrefl, false_or, true_and] at hbt
    exact hall h' hr2 hbt
  · rintro ⟨h, ⟨p, hr, hall⟩, rfl⟩
    obtain ⟨rfl, hr2⟩ := (hR _ _ _).1 hr
    refine ⟨h, ⟨hr2, ?_⟩, rfl⟩
    intro h' hr' hl
    refine hall [] h' ((hR _ _ _).2 ⟨rfl, hr'⟩) ?_
    simp only [Better, hk, if_false, List.length_nil, Nat.lt_irrefl, false_or, true_and]
    exact hl

theorem finds_priv : FindsKind .priv := by
  obtain ⟨f, s, hf⟩ := sem_name true (.lit '#') (by decide)
  refine finds_single .priv _ f s (by simp [nameRe, word, Re.plus, run]) (NameRead (.lit '#')) ?_ rfl (by decide) ?_
  · intro y hy c
    rw [(hf y hy).1]
    simp [NameBest, ord]
  · intro t p h
    simp [Reading, NameRead, CC.test]

theorem finds_exec : FindsKind .exec := by
  obtain ⟨f, s, hf⟩ := sem_name true (.lit '>') (by decide)
  refine finds_single .exec _ f s (by simp [nameRe, word, Re.plus, run]) (NameRead (.lit '>')) ?_ rfl (by decide) ?_
  · intro y hy c
    rw [(hf y hy).1]
    simp [NameBest, ord]
  · intro t p h
    simp [Reading, NameRead, CC.test]

theorem finds_huawei : FindsKind .huawei := by
  obtain ⟨f, s, hf⟩ := sem_name true (.lit '>') (by decide)
  obtain ⟨f1, s1, h1, n1⟩ := sem_chr_iff (.lit '<') (by decide) _ f s
  refine finds_single .huawei _ f1 s1 (by simp [run]) (fun y h => ∃ q, y = '<' :: q ∧ NameRead (.lit '>') q h) ?_ rfl (by decide) ?_
  · intro y hy c
    rw [h1]
    simp only [CC.test, beq_iff_eq]
    constructor
    · rintro ⟨x, r, rfl, rfl, e⟩
      obtain ⟨h, hb, rfl⟩ := ((hf r (fun hh => hy (by simp [hh]))).1 c).1 e
      refine ⟨h, ⟨⟨r, rfl, hb.1⟩, ?_⟩, rfl⟩
      rintro h' ⟨q, e', hn⟩ hl
      cases e'
      exact hb.2 h' hn (by simpa [ord] using hl)
    · rintro ⟨h, ⟨⟨q, rfl, hn⟩, hall⟩, rfl⟩
      refine ⟨'<', q, rfl, rfl, ((hf q (fun hh => hy (by simp [hh]))).1 _).2 ⟨h, ⟨hn, ?_⟩, rfl⟩⟩
      intro h' hn' ho
      exact hall h' ⟨q, rfl, hn'⟩ (by simpa [ord] using ho)
  · intro t p h
    simp only [Reading, NameRead, CC.test, beq_iff_eq]
    constructor
    · rintro ⟨rfl, b1, b2, r, rfl⟩
      exact ⟨rfl, _, rfl, b1, b2, '>', r, rfl, rfl⟩
    · rintro ⟨rfl, q, rfl, b1, b2, x, r, rfl, rfl⟩
      exact ⟨rfl, b1, b2, r, rfl⟩

theorem finds_xr : FindsKind .xr := by
  refine finds_prefixed .xr (word true) _ (bit_word true) ':' (by decide) true (.lit '#') (by decide) rfl
    (by simp [word, Re.plus, run]) (by decide) ?_
  intro t p h
  simp only [Reading, NameRead, CC.test, beq_iff_eq]
  constructor
  · rintro ⟨a1, a2, b1, b2, r, rfl⟩
    exact ⟨⟨a1, a2⟩, _, rfl, b1, b2, '#', r, rfl, rfl⟩
  · rintro ⟨⟨a1, a2⟩, q, rfl, b1, b2, x, r, rfl, rfl⟩
    exact ⟨a1, a2, b1, b2, r, rfl⟩

theorem finds_juniper : FindsKind .juniper := by
  refine finds_prefixed .juniper (.star true (.cls .nspace)) Blankless ?_ '@' (by decide) true (.lit '>') (by decide) rfl
    (by simp [run, starRun]) (by decide) ?_
  · exact bit_congr (bit_star .nspace (by decide) true) nspace_iff
  · intro t p h
    simp only [Reading, NameRead, CC.test, beq_iff_eq]
    constructor
    · rintro ⟨a1, b1, b2, r, rfl⟩
      exact ⟨a1, _, rfl, b1, b2, '>', r, rfl, rfl⟩
    · rintro ⟨a1, q, rfl, b1, b2, x, r, rfl, rfl⟩
      exact ⟨a1, b1, b2, r, rfl⟩

theorem bit_opt : Bit (.alt (.cls .nspace) .eps) (fun p => Blankless p ∧ p.length ≤ 1) (ord true) := by
  intro y hy
  cases y with
  | nil =>
    refine ⟨[([], [])], fun rest => by simp [run, CC.test, isSpace, hitsOf], ?_, by simp⟩
    intro p q
    simp only [List.mem_singleton, Prod.mk.injEq]
    constructor
    · rintro ⟨rfl, rfl⟩; simp [Blankless]
    · rintro ⟨e, _⟩; exact List.append_eq_nil_iff.1 e.symm
  | cons x y =>
    by_cases hx : isSpace x = true
    · refine ⟨[([], x :: y)], fun rest => by simp [run, CC.test, hx, hitsOf], ?_, by simp⟩
      intro p q
      simp only [List.mem_singleton, Prod.mk.injEq]
      constructor
      · rintro ⟨rfl, rfl⟩; simp [Blankless]
      · rintro ⟨e, hb, hl⟩
        cases p with
        | nil => exact ⟨rfl, by simpa using e.symm⟩
        | cons z p =>
          simp only [List.cons_append, List.cons.injEq] at e
          have := hb z (by simp)
          rw [← e.1, hx] at this; cases this
    · have hx' : isSpace x = false := by simpa using hx
      refine ⟨[([x], y), ([], x :: y)], fun rest => by simp [run, CC.test, hx', hitsOf], ?_, by simp [ord]⟩
      intro p q
      simp only [List.mem_cons, Prod.mk.injEq, List.not_mem_nil, or_false]
      constructor
      · rintro (⟨rfl, rfl⟩ | ⟨rfl, rfl⟩)
        · exact ⟨rfl, by simpa [Blankless] using hx', by simp⟩
        · simp [Blankless]
      · rintro ⟨e, hb, hl⟩
        cases p with
        | nil => right; exact ⟨rfl, by simpa using e.symm⟩
        | cons z p =>
          have hp : p = [] := List.length_eq_zero_iff.1 (by simpa using hl)
          subst hp
          simp only [List.cons_append, List.cons.injEq, List.nil_append] at e
          left; exact ⟨by rw [e.1], e.2.symm⟩

theorem finds_sros : FindsKind .sros := by
  have hb := bit_seq _ _ _ _ _ (fun a b => a < b) (bit_cls .nspace (by decide) (fun a b => a < b)) bit_opt
    (ord_add true) (fun n => Nat.lt_irrefl n) (by
      rintro p q p' q' ⟨x, rfl, _⟩ ⟨x', rfl, _⟩ e _ _
      simp only [List.cons_append, List.nil_append, List.cons.injEq] at e
      rw [e.1])
  have hb' : Bit (.seq (.cls .nspace) (.alt (.cls .nspace) .eps)) (fun p => Blankless p ∧ (p.length = 1 ∨ p.length = 2)) (ord true) := by
    refine bit_congr hb ?_
    intro p
    constructor
    · rintro ⟨p, q, rfl, ⟨x, rfl, hx⟩, hq, hl⟩
      refine ⟨?_, ?_⟩
      · intro z hz
        rcases List.mem_append.1 hz with hz | hz
        · rw [List.mem_singleton.1 hz]; simpa [CC.test] using hx
        · exact hq z hz
      · simp only [List.length_append, List.length_cons, List.length_nil]; omega
    · rintro ⟨hbl, hl⟩
      cases p with
      | nil => simp at hl
      | cons x p =>
        refine ⟨[x], p, rfl, ⟨x, rfl, by simpa [CC.test] using hbl x (by simp)⟩, fun z hz => hbl z (by simp [hz]), ?_⟩
        simp only [List.length_cons] at hl
        omega
  refine finds_prefixed .sros _ _ hb' ':' (by decide) false (.oneOf ['>', '#']) (by decide) rfl (by simp [run]) (by decide) ?_
  intro t p h
  simp only [Reading, NameRead, CC.test]
  constructor
  · rintro ⟨a1, a2, b1, b2, c, r, hc, rfl⟩
    exact ⟨⟨a1, a2⟩, _, rfl, b1, b2, c, r, by rcases hc with rfl | rfl <;> decide, rfl⟩
  · rintro ⟨⟨a1, a2⟩, q, rfl, b1, b2, x, r, hx, rfl⟩
    refine ⟨a1, a2, b1, b2, x, r, by simpa using hx, rfl⟩

theorem bit_lit (ch : Char) (hch : ch ≠ '\n') (lt : Nat → Nat → Prop) : Bit (.cls (.lit ch)) (fun p => p = [ch]) lt := by
  refine bit_congr (bit_cls (.lit ch) (by simpa [CC.test] using hch) lt) ?_
  intro p
  simp only [CC.test, beq_iff_eq]
  constructor
  · rintro ⟨x, rfl, rfl⟩; rfl
  · rintro rfl; exact ⟨ch, rfl, rfl⟩

/-- a literal character before something -/
theorem bit_lit_seq (ch : Char) (hch : ch ≠ '\n') (b : Re) (Q : Str → Prop) (g : Bool) (hb : Bit b Q (ord g)) :
    Bit (.seq (.cls (.lit ch)) b) (fun z => ∃ q, z = ch :: q ∧ Q q) (ord g) := by
  refine bit_congr (bit_seq _ _ _ _ _ (fun a b => a < b) (bit_lit ch hch _) hb (ord_add g) (fun n => Nat.lt_irrefl n) ?_) ?_
  · rintro p q p' q' rfl rfl _ _ _; rfl
  · intro p
    constructor
    · rintro ⟨p, q, rfl, rfl, hq⟩; exact ⟨q, rfl, hq⟩
    · rintro ⟨q, rfl, hq⟩; exact ⟨[ch], q, rfl, rfl, hq⟩

/-- the last character of a prompt in brackets decides -/
theorem bit_word_lit (ch : Char) (hch : ch ≠ '\n') :
    Bit (.seq (word true) (.cls (.lit ch))) (fun z => ∃ p, z = p ++ [ch] ∧ Blankless p ∧ p ≠ []) (ord true) := by
  intro y hy
  obtain ⟨L, hL, hm, hs⟩ := bit_word true y hy
  have hnl : ∀ u ∈ L, '\n' ∉ u.2 := by
    intro u hu hn
    exact hy (by rw [((hm u.1 u.2).1 hu).1]; simp [hn])
  refine ⟨L.filterMap (fun u => match u.2 with
    | [] => none
    | x :: r => if ch = x then some (u.1 ++ [x], r) else none), ?_, ?_, ?_⟩
  · intro rest
    simp only [run, hL, hitsOf, List.flatMap_map]
    clear hm hs hL
    induction L with
    | nil => rfl
    | cons u L ih =>
      have hu := hnl u (by simp)
      rw [List.flatMap_cons, ih (fun v hv => hnl v (by simp [hv])), List.filterMap_cons]
      cases h2 : u.2 with
      | nil => simp [CC.test, hch]
      | cons x r =>
        by_cases hx : ch = x
        · simp [CC.test, hx]
        · simp [CC.test, hx]
  · intro p q
    simp only [List.mem_filterMap]
    constructor
    · rintro ⟨u, hu, e⟩
      have := (hm u.1 u.2).1 hu
      cases h2 : u.2 with
      | nil => rw [h2] at e; cases e
      | cons x r =>
        rw [h2] at e
        dsimp only at e
        split at e
        · rename_i hx
          simp only [Option.some.injEq, Prod.mk.injEq] at e
          obtain ⟨rfl, rfl⟩ := e
          refine ⟨by rw [this.1, h2]; simp, u.1, by rw [hx], this.2⟩
        · cases e
    · rintro ⟨e, p0, rfl, hp⟩
      exact ⟨(p0, ch :: q), (hm _ _).2 ⟨by rw [e]; simp, hp⟩, by simp⟩
  · rw [List.pairwise_filterMap]
    refine hs.imp ?_
    intro u v h b hb b' hb'
    have key : ∀ (w : Str × Str) (b : Str × Str), (match w.2 with
      | [] => none
      | x :: r => if ch = x then some (w.1 ++ [x], r) else none) = some b → b.1.length = w.1.length + 1 := by
      intro w b e
      cases h2 : w.2 with
      | nil => rw [h2] at e; cases e
      | cons x r =>
        rw [h2] at e
        dsimp only at e
        split at e
        · simp only [Option.some.injEq] at e
          subst e; simp
        · cases e
    rw [key u b hb, key v b' hb']
    simp only [ord, if_true] at h ⊢
    omega

theorem blankless_split (a b q r : Str) (ha : Blankless a) (hb : Blankless b) (e : a ++ ' ' :: q = b ++ ' ' :: r) : a = b := by
  induction a generalizing b with
  | nil =>
    cases b with
    | nil => rfl
    | cons x b =>
      simp only [List.nil_append, List.cons_append, List.cons.injEq] at e
      have := hb x (by simp)
      rw [← e.1] at this
      exact absurd this (by decide)
  | cons z a ih =>
    cases b with
    | nil =>
      simp only [List.nil_append, List.cons_append, List.cons.injEq] at e
      have := ha z (by simp)
      rw [e.1] at this
      exact absurd this (by decide)
    | cons x b =>
      simp only [List.cons_append, List.cons.injEq] at e
      rw [e.1, ih b (fun c hc => ha c (by simp [hc])) (fun c hc => hb c (by simp [hc])) e.2]

theorem bit_forti : Bit (.seq (word true) (.seq (.cls (.lit ' ')) (.seq (.cls (.lit '(')) (.seq (word true) (.cls (.lit ')'))))))
    (fun h => ∃ a v, Blankless a ∧ a ≠ [] ∧ Blankless v ∧ v ≠ [] ∧ h = a ++ c!" (" ++ v ++ c!")") (ord true) := by
  have h1 := bit_lit_seq ' ' (by decide) _ _ true (bit_lit_seq '(' (by decide) _ _ true (bit_word_lit ')' (by decide)))
  refine bit_congr (bit_seq _ _ _ _ _ (ord true) (bit_word true) h1 (ord_add true) (fun n h => ord_asymm true n n h h) ?_) ?_
  · rintro p q p' q' ⟨hp, _⟩ ⟨hp', _⟩ e ⟨z, w, rfl, z1, rfl, _⟩ ⟨z', w', rfl, z1', rfl, _⟩
    exact blankless_split p p' _ _ hp hp' e
  · intro p
    constructor
    · rintro ⟨p, q, rfl, ⟨a1, a2⟩, q1, rfl, q2, rfl, v, rfl, b1, b2⟩
      exact ⟨p, v, a1, a2, b1, b2, by simp⟩
    · rintro ⟨a, v, a1, a2, b1, b2, rfl⟩
      exact ⟨a, _, by simp, ⟨a1, a2⟩, _, rfl, _, rfl, v, rfl, b1, b2⟩

theorem finds_forti : FindsKind .forti := by
  obtain ⟨f1, s1, h1, n1⟩ := sem_chr_iff (.lit '#') (by decide) tail _ sem_tail
  obtain ⟨f2, s2, h2, n2⟩ := sem_chr_iff (.lit ' ') (by decide) _ f1 s1
  obtain ⟨f3, s3, h3⟩ := sem_cap hostGroup _ _ _ (ord true) (ord_asymm true) bit_forti f2 s2
  have hs2 : ∀ q c, f2 q = some c ↔ (∃ r, q = c!" #" ++ r) ∧ c = [] := by
    intro q c
    rw [h2]
    simp only [h1, CC.test, beq_iff_eq, Option.some.injEq]
    constructor
    · rintro ⟨x, r, rfl, rfl, x', r', rfl, rfl, rfl⟩; exact ⟨⟨r', rfl⟩, rfl⟩
    · rintro ⟨⟨r, rfl⟩, rfl⟩; exact ⟨' ', _, rfl, rfl, '#', r, rfl, rfl, rfl⟩
  refine finds_single .forti _ f3 s3 (by simp [word, Re.plus, run]) (fun y h =>
    (∃ a v, Blankless a ∧ a ≠ [] ∧ Blankless v ∧ v ≠ [] ∧ h = a ++ c!" (" ++ v ++ c!")") ∧ ∃ r, y = h ++ c!" #" ++ r) ?_ rfl (by decide) ?_
  · intro y hy c
    rw [(h3 y c hy).1]
    constructor
    · rintro ⟨p, q, c0, rfl, hP, e, rfl, hall⟩
      obtain ⟨⟨r, rfl⟩, rfl⟩ := (hs2 _ _).1 e
      refine ⟨p, ⟨⟨hP, r, by simp⟩, ?_⟩, by simp⟩
      rintro h' ⟨hP', r', e'⟩ hl
      have := hall h' (c!" #" ++ r') (by rw [e']; simp) hP' (by simpa [ord] using hl)
      rw [(hs2 _ []).2 ⟨⟨r', rfl⟩, rfl⟩] at this
      cases this
    · rintro ⟨h, ⟨⟨hP, r, e⟩, hall⟩, rfl⟩
      refine ⟨h, c!" #" ++ r, [], by rw [e]; simp, hP, (hs2 _ _).2 ⟨⟨r, rfl⟩, rfl⟩, by simp, ?_⟩
      intro p' q' e' hP' hl
      cases hf : f2 q' with
      | none => rfl
      | some k =>
        obtain ⟨⟨r', rfl⟩, _⟩ := (hs2 _ _).1 hf
        exact absurd (by simpa [ord] using hl) (hall p' ⟨hP', r', by rw [e']; simp⟩)
  · intro t p h
    simp only [Reading]
    constructor
    · rintro ⟨rfl, a, v, r, a1, a2, b1, b2, e1, e2⟩; exact ⟨rfl, ⟨a, v, a1, a2, b1, b2, e1⟩, r, e2⟩
    · rintro ⟨rfl, ⟨a, v, a1, a2, b1, b2, e1⟩, r, e2⟩; exact ⟨rfl, a, v, r, a1, a2, b1, b2, e1, e2⟩

theorem finds_all (k : Prompt) : FindsKind k := by
  cases k
  · exact finds_sros
  · exact finds_xr
  · exact finds_priv
  · exact finds_juniper
  · exact finds_huawei
  · exact finds_exec
  · exact finds_forti

/-! ## The first prompt -/

theorem lineHits_head (f : Str → Option Caps) (p : Nat) (lines : List Str) :
    (lineHits f p lines).head?.map Match.caps = (lines.findSome? f) := by
  induction lines generalizing p with
  | nil => rfl
  | cons t ts ih =>
    rw [lineHits, List.findSome?_cons]
    cases hf : f t with
    | none => simpa using ih _
    | some c => simp

theorem first_kind (k : Prompt) (lines : List Str) (hl : ∀ t ∈ lines, '\n' ∉ t) (h : Str) :
    (finditer (reOf k) (nlText lines)).head?.map (fun m => (m.group hostGroup).getD []) = some h ↔ FirstPrompt k lines h := by
  obtain ⟨f, ho, hf⟩ := finds_all k
  rw [finditer_lines (reOf k) f ho lines hl]
  have h1 : (lineHits f 0 lines).head?.map (fun m => (m.group hostGroup).getD []) =
      (lines.findSome? f).map (fun c => (Dict.get? c hostGroup).getD []) := by
    rw [← lineHits_head f 0 lines, Option.map_map]
    rfl
  rw [h1, Option.map_eq_some_iff]
  have hcap : ∀ h : Str, (Dict.get? ([(hostGroup, h)] : Caps) hostGroup).getD [] = h := by intro h; rfl
  constructor
  · rintro ⟨c, hc, rfl⟩
    obtain ⟨l1, t, l2, e, ht, hall⟩ := List.findSome?_eq_some_iff.1 hc
    obtain ⟨h, hp, rfl⟩ := (hf t (hl t (by rw [e]; simp)) c).1 ht
    rw [hcap]
    refine ⟨l1, t, l2, e, hp, ?_⟩
    intro t' h' h'' hp'
    have := (hf t' (hl t' (by rw [e]; simp [h'])) _).2 ⟨h'', hp', rfl⟩
    rw [hall t' h'] at this; cases this
  · rintro ⟨l1, t, l2, e, hp, hall⟩
    refine ⟨_, List.findSome?_eq_some_iff.2 ⟨l1, t, l2, e, (hf t (hl t (by rw [e]; simp)) _).2 ⟨h, hp, rfl⟩, ?_⟩, hcap h⟩
    intro t' h'
    cases hc : f t' with
    | none => rfl
    | some c =>
      obtain ⟨h'', hp', _⟩ := (hf t' (hl t' (by rw [e]; simp [h'])) c).1 hc
      exact absurd hp' (hall t' h' h'')

theorem none_kind (k : Prompt) (lines : List Str) (hl : ∀ t ∈ lines, '\n' ∉ t) :
    finditer (reOf k) (nlText lines) = [] ↔ ∀ t ∈ lines, ∀ h, ¬ PromptOf k t h := by
  constructor
  · intro he t ht h hp
    -- the first line with a prompt
    obtain ⟨f, ho, hf⟩ := finds_all k
    rw [finditer_lines (reOf k) f ho lines hl] at he
    have h1 := lineHits_head f 0 lines
    rw [he] at h1
    have := (List.findSome?_eq_none_iff.1 h1.symm) t ht
    rw [(hf t (hl t ht) _).2 ⟨h, hp, rfl⟩] at this
    cases this
  · intro hall
    cases he : finditer (reOf k) (nlText lines) with
    | nil => rfl
    | cons m ms =>
      have := (first_kind k lines hl ((m.group hostGroup).getD [])).1 (by rw [he]; rfl)
      obtain ⟨l1, t, l2, e, hp, _⟩ := this
      exact absurd hp (hall t (by rw [e]; simp) _)

theorem findHost_iff (ks : List Prompt) (lines : List Str) (hl : ∀ t ∈ lines, '\n' ∉ t) (v : Str) :
    findHost (ks.map reOf) (nlText lines) = some v ↔
      ∃ k1 k k2 h, ks = k1 ++ k :: k2 ∧ FirstPrompt k lines h ∧ (∀ k' ∈ k1, ∀ t ∈ lines, ∀ h', ¬ PromptOf k' t h') ∧ v = stripBom h := by
  induction ks with
  | nil => simp [findHost]
  | cons k ks ih =>
    simp only [List.map_cons, findHost]
    cases he : finditer (reOf k) (nlText lines) with
    | nil =>
      have hn := (none_kind k lines hl).1 he
      dsimp only
      rw [ih]
      constructor
      · rintro ⟨k1, k', k2, h, rfl, hp, hall, rfl⟩
        refine ⟨k :: k1, k', k2, h, rfl, hp, ?_, rfl⟩
        intro k'' hk
        rcases List.mem_cons.1 hk with rfl | hk
        · exact hn
        · exact hall k'' hk
      · rintro ⟨k1, k', k2, h, e, hp, hall, rfl⟩
        cases k1 with
        | nil =>
          simp only [List.nil_append, List.cons.injEq] at e
          obtain ⟨l1, t, l2, e', hp', _⟩ := hp
          rw [← e.1] at hp'
          exact absurd hp' (hn t (by rw [e']; simp) h)
        | cons x k1 =>
          simp only [List.cons_append, List.cons.injEq] at e
          exact ⟨k1, k', k2, h, e.2, hp, fun k'' hk => hall k'' (by simp [hk]), rfl⟩
    | cons m ms =>
      have hfp := (first_kind k lines hl ((m.group hostGroup).getD [])).1 (by rw [he]; rfl)
      dsimp only
      constructor
      · intro e
        simp only [Option.some.injEq] at e
        exact ⟨[], k, ks, _, rfl, hfp, by simp, e.symm⟩
      · rintro ⟨k1, k', k2, h, e, hp, hall, rfl⟩
        cases k1 with
        | nil =>
          simp only [List.nil_append, List.cons.injEq] at e
          rw [← e.1] at hp
          have := (first_kind k lines hl h).2 hp
          rw [he] at this
          simp only [List.head?_cons, Option.map_some, Option.some.injEq] at this
          rw [this]
        | cons x k1 =>
          simp only [List.cons_append, List.cons.injEq] at e
          obtain ⟨l1, t, l2, e', hp', _⟩ := hfp
          exact absurd hp' (hall k (by simp [e.1]) t (by rw [e']; simp) _)

theorem stripBom_plain (h : Str) (hm : ∀ c ∈ markChars, h.head? ≠ some c) : stripBom h = h := by
  have key : ∀ cs : List Char, (∀ c ∈ cs, c ∈ markChars) → lstripOf cs h = h := by
    intro cs hcs
    cases h with
    | nil => rfl
    | cons x h =>
      rw [lstripOf, List.dropWhile_cons, if_neg]
      intro hc
      have := hcs x (by simpa using hc)
      exact hm x this rfl
  simp only [stripBom, List.foldl_cons, List.foldl_nil]
  rw [key _ (by decide), key _ (by decide), key _ (by decide), key _ (by decide)]

end TTP
