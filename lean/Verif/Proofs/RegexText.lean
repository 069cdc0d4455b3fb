import Verif.Py.RegexText
import Verif.Proofs.Regex
/-!
# Lemmas about the text of regular expressions
-/

namespace Py
namespace ReText
open Re

/-! ## More fuel -/

theorem moreAlts_mono {f g : Str → Option (Re × Str)} {a b : Option (Re × Str)} {x : Re × Str}
    (hf : ∀ s y, f s = some y → g s = some y) (ha : ∀ y, a = some y → b = some y) (h : moreAlts f a = some x) : moreAlts g b = some x := by
  cases a with
  | none => simp [moreAlts] at h
  | some y =>
    rw [ha y rfl]
    obtain ⟨r, s⟩ := y
    cases s with
    | nil => exact h
    | cons c s =>
      by_cases hc : c = '|'
      · subst hc
        simp only [moreAlts, Option.map_eq_some_iff] at h ⊢
        obtain ⟨z, h1, h2⟩ := h
        exact ⟨z, hf _ _ h1, h2⟩
      · have e : ∀ k : Str → Option (Re × Str), moreAlts k (some (r, c :: s)) = some (r, c :: s) := by
          intro k; unfold moreAlts; split
          · next e => injection e with e; injection e with _ e; injection e with e _; exact absurd e hc
          · rfl
        rw [e] at h ⊢; exact h

theorem moreItems_mono {f g : Str → Option (Re × Str)} {a b : Option (Re × Str)} {x : Re × Str}
    (hf : ∀ s y, f s = some y → g s = some y) (ha : ∀ y, a = some y → b = some y) (h : moreItems f a = some x) : moreItems g b = some x := by
  cases a with
  | none => simp [moreItems] at h
  | some y =>
    rw [ha y rfl]
    simp only [moreItems, Option.map_eq_some_iff] at h ⊢
    obtain ⟨z, h1, h2⟩ := h
    exact ⟨z, hf _ _ h1, h2⟩

theorem closeGroup_mono {hd : Head} {a b : Option (Re × Str)} {x : Re × Str} (ha : ∀ y, a = some y → b = some y)
    (h : closeGroup hd a = some x) : closeGroup hd b = some x := by
  cases a with
  | none => simp [closeGroup] at h
  | some y => rw [ha y rfl]; exact h

theorem parse_item_eq (n : Nat) (s : Str) : parse (n + 1) .item s =
    match head s with
    | none => none
    | some (.one c, q) => quant (.cls c) q
    | some (.eos, q) => if (quantHead q).isSome then none else some (.eos, q)
    | some (h, q) => closeGroup h (parse n .alts q) := by
  rw [parse]; rfl

theorem parse_mono (n : Nat) : ∀ (m : Mode) (s : Str) (x : Re × Str), parse n m s = some x → parse (n + 1) m s = some x := by
  induction n with
  | zero => intro m s x h; simp [parse] at h
  | succ n ih =>
    intro m s x h
    cases m with
    | alts =>
      rw [parse] at h ⊢
      exact moreAlts_mono (fun s y => ih _ s y) (fun y => ih _ s y) h
    | sequence =>
      rw [parse] at h ⊢
      split at h
      · next he => rw [if_pos he]; exact h
      · next he => rw [if_neg he]; exact moreItems_mono (fun s y => ih _ s y) (fun y => ih _ s y) h
    | item =>
      rw [parse_item_eq] at h ⊢
      cases hh : head s with
      | none => rw [hh] at h; cases h
      | some y =>
        obtain ⟨hd, q⟩ := y
        rw [hh] at h
        cases hd with
        | one c => exact h
        | eos => exact h
        | group => exact closeGroup_mono (fun y => ih _ q y) h
        | named m => exact closeGroup_mono (fun y => ih _ q y) h
        | look => exact closeGroup_mono (fun y => ih _ q y) h

theorem parse_le {n k : Nat} (hk : n ≤ k) {m : Mode} {s : Str} {x : Re × Str} (h : parse n m s = some x) : parse k m s = some x := by
  induction hk with
  | refl => exact h
  | step _ ih => exact parse_mono _ _ _ _ ih

/-- Some fuel is enough to read `r`, and `rest` is left. -/
def Parses (m : Mode) (s : Str) (r : Re) (rest : Str) : Prop := ∃ n, parse n m s = some (r, rest)

theorem Parses_unique {m : Mode} {s : Str} {r r' : Re} {q q' : Str} (h : Parses m s r q) (h' : Parses m s r' q') : r = r' ∧ q = q' := by
  obtain ⟨n, h⟩ := h
  obtain ⟨k, h'⟩ := h'
  have h1 := parse_le (Nat.le_max_left n k) h
  have h2 := parse_le (Nat.le_max_right n k) h'
  rw [h1] at h2
  injection h2 with e
  injection e with e1 e2
  exact ⟨e1, e2⟩

/-! ## Lengths -/

theorem digitRun_append (s : Str) : (digitRun s).1 ++ (digitRun s).2 = s := by
  induction s with
  | nil => rfl
  | cons c s ih => simp only [digitRun]; split <;> simp [ih]

theorem braces_suffix (s : Str) (a : Nat) (b : Option Nat) (q : Str) (h : braces s = some (a, b, q)) : ∃ w, w ≠ [] ∧ s = w ++ q := by
  unfold braces at h
  have e1 := digitRun_append s
  split at h
  · next q' e =>
    split at h
    · cases h
    · simp only [Option.some.injEq, Prod.mk.injEq] at h
      obtain ⟨-, -, rfl⟩ := h
      exact ⟨(digitRun s).1 ++ ['}'], by simp, by rw [e] at e1; rw [List.append_assoc]; exact e1.symm⟩
  · next r e =>
    have e2 := digitRun_append r
    split at h
    · next q' e' =>
      simp only [Option.some.injEq, Prod.mk.injEq] at h
      obtain ⟨-, -, rfl⟩ := h
      exact ⟨(digitRun s).1 ++ [','] ++ (digitRun r).1 ++ ['}'], by simp, by
        rw [e, ← e2, e'] at e1; simp only [List.append_assoc]; exact e1.symm⟩
    · cases h
  · cases h

theorem quantHead_suffix (s : Str) (a : Nat) (b : Option Nat) (q : Str) (h : quantHead s = some (a, b, q)) : ∃ w, w ≠ [] ∧ s = w ++ q := by
  unfold quantHead at h
  split at h
  · simp only [Option.some.injEq, Prod.mk.injEq] at h; obtain ⟨-, -, rfl⟩ := h; exact ⟨['*'], by simp, rfl⟩
  · simp only [Option.some.injEq, Prod.mk.injEq] at h; obtain ⟨-, -, rfl⟩ := h; exact ⟨['+'], by simp, rfl⟩
  · simp only [Option.some.injEq, Prod.mk.injEq] at h; obtain ⟨-, -, rfl⟩ := h; exact ⟨['?'], by simp, rfl⟩
  · next q' =>
    obtain ⟨w, _, e⟩ := braces_suffix _ _ _ _ h
    exact ⟨'{' :: w, by simp, by simp [e]⟩
  · cases h

theorem lazyMark_suffix (s : Str) : ∃ w, s = w ++ (lazyMark s).2 := by
  unfold lazyMark; split
  · exact ⟨['?'], rfl⟩
  · exact ⟨[], rfl⟩

theorem quant_suffix (r : Re) (s : Str) (x : Re × Str) (h : quant r s = some x) : ∃ w, s = w ++ x.2 := by
  unfold quant at h
  split at h
  · injection h with h; subst h; exact ⟨[], rfl⟩
  · next lo hi q hq =>
    obtain ⟨w, _, e⟩ := quantHead_suffix _ _ _ _ hq
    split at h
    · cases h
    · rw [Option.map_eq_some_iff] at h
      obtain ⟨y, _, rfl⟩ := h
      obtain ⟨w', e'⟩ := lazyMark_suffix q
      exact ⟨w ++ w', by rw [e]; simp; exact e'⟩

theorem member_suffix (s : Str) (x : Member × Str) (h : member s = some x) : ∃ w, w ≠ [] ∧ s = w ++ x.2 := by
  unfold member at h
  split at h
  · next c q =>
    rw [Option.map_eq_some_iff] at h; obtain ⟨m, _, rfl⟩ := h
    exact ⟨['\\', c], by simp, rfl⟩
  · cases h
  · next c q _ _ => injection h with h; subst h; exact ⟨[c], by simp, rfl⟩
  · cases h

theorem rangeEnd_suffix (a : Member) (s : Str) (x : CItem × Str) (h : rangeEnd a s = some x) : ∃ w, s = w ++ x.2 := by
  unfold rangeEnd at h
  split at h
  · next hm =>
    obtain ⟨w, _, e⟩ := member_suffix _ _ hm
    split at h
    · injection h with h; subst h; exact ⟨w, e⟩
    · cases h
  · cases h

theorem setNext_suffix {f : Str → Option (List CItem × Str)} (m : Member) (r : Str) (x : List CItem × Str)
    (hf : ∀ s y, f s = some y → ∃ w, s = w ++ y.2) (h : setNext f m r = some x) : ∃ w, r = w ++ x.2 := by
  unfold setNext at h
  split at h
  · injection h with h; subst h; exact ⟨['-', ']'], rfl⟩
  · next q _ =>
    split at h
    · cases h
    · next i q' hr =>
      obtain ⟨w', e'⟩ := rangeEnd_suffix _ _ _ hr
      rw [Option.map_eq_some_iff] at h
      obtain ⟨y, hy, rfl⟩ := h
      obtain ⟨w2, e2⟩ := hf _ _ hy
      exact ⟨'-' :: w' ++ w2, by dsimp only at e' e2 ⊢; rw [e', e2]; simp⟩
  · rw [Option.map_eq_some_iff] at h
    obtain ⟨y, hy, rfl⟩ := h
    exact hf _ y hy

theorem setItems_suffix (n : Nat) : ∀ (f : Bool) (s : Str) (x : List CItem × Str), setItems n f s = some x → ∃ w, w ≠ [] ∧ s = w ++ x.2 := by
  induction n with
  | zero => intro f s x h; simp [setItems] at h
  | succ n ih =>
    intro f s x h
    rw [setItems] at h
    split at h
    · next he =>
      injection h with h; subst h
      cases s with
      | nil => simp at he
      | cons c s => exact ⟨[c], by simp, rfl⟩
    · split at h
      · cases h
      · next m r hm =>
        obtain ⟨w, hw, e⟩ := member_suffix _ _ hm
        obtain ⟨w2, e2⟩ := setNext_suffix _ _ _ (fun s y hy => by obtain ⟨w, _, e⟩ := ih _ _ _ hy; exact ⟨w, e⟩) h
        exact ⟨w ++ w2, by simp [hw], by dsimp only at e; rw [e, e2]; simp⟩

theorem setText_suffix (s : Str) (x : CC × Str) (h : setText s = some x) : ∃ w, w ≠ [] ∧ s = w ++ x.2 := by
  unfold setText at h
  split at h
  · rw [Option.map_eq_some_iff] at h
    obtain ⟨y, hy, rfl⟩ := h
    obtain ⟨w, _, e⟩ := setItems_suffix _ _ _ _ hy
    exact ⟨'^' :: w, by simp, by simp [e]⟩
  · rw [Option.map_eq_some_iff] at h
    obtain ⟨y, hy, rfl⟩ := h
    exact setItems_suffix _ _ _ _ hy

theorem untilGt_eq (s : Str) (n q : Str) (h : untilGt s = some (n, q)) : s = n ++ '>' :: q := by
  induction s generalizing n with
  | nil => simp [untilGt] at h
  | cons c s ih =>
    unfold untilGt at h
    split at h
    · cases h
    · next e => injection e with e1 e2; subst e1; subst e2; injection h with h; injection h with h1 h2; subst h1; subst h2; rfl
    · next c' q' _ e =>
      injection e with e1 e2; subst e1; subst e2
      rw [Option.map_eq_some_iff] at h
      obtain ⟨y, hy, he⟩ := h
      injection he with h1 h2
      subst h1
      subst h2
      rw [List.cons_append, ← ih y.1 hy]

theorem head_suffix (s : Str) (x : Head × Str) (h : head s = some x) : ∃ w, w ≠ [] ∧ s = w ++ x.2 := by
  unfold head at h
  split at h
  · cases h
  · injection h with h; subst h; exact ⟨['(', '?', ':'], by simp, rfl⟩
  · injection h with h; subst h; exact ⟨['(', '?', '='], by simp, rfl⟩
  · unfold namedHead at h
    split at h
    · next n q' hu =>
      split at h
      · injection h with h; subst h; exact ⟨c!"(?P<" ++ n ++ ['>'], by simp, by rw [untilGt_eq _ _ _ hu]; simp⟩
      · cases h
    · cases h
  · cases h
  · injection h with h; subst h; exact ⟨['('], by simp, rfl⟩
  · rw [Option.map_eq_some_iff] at h
    obtain ⟨y, hy, rfl⟩ := h
    obtain ⟨w, _, e⟩ := setText_suffix _ _ hy
    exact ⟨'[' :: w, by simp, by simp [e]⟩
  · next c q =>
    rw [Option.map_eq_some_iff] at h
    obtain ⟨y, hy, rfl⟩ := h
    exact ⟨['\\', c], by simp, rfl⟩
  · cases h
  · injection h with h; subst h; exact ⟨['.'], by simp, rfl⟩
  · injection h with h; subst h; exact ⟨['$'], by simp, rfl⟩
  · split at h
    · cases h
    · injection h with h; subst h; exact ⟨['{'], by simp, rfl⟩
  · next c q _ _ _ _ _ _ _ _ _ _ _ =>
    split at h
    · cases h
    · injection h with h; subst h; exact ⟨[c], by simp, rfl⟩

theorem moreAlts_some {f : Str → Option (Re × Str)} {a : Option (Re × Str)} {x : Re × Str} (h : moreAlts f a = some x) :
    (a = some x ∧ ∀ q, x.2 ≠ '|' :: q) ∨ ∃ r q y, a = some (r, '|' :: q) ∧ f q = some y ∧ x = (.alt r y.1, y.2) := by
  unfold moreAlts at h
  split at h
  · next r q =>
    rw [Option.map_eq_some_iff] at h
    obtain ⟨y, h1, h2⟩ := h
    exact Or.inr ⟨r, q, y, rfl, h1, h2.symm⟩
  · next hn =>
    refine Or.inl ⟨h, fun q e => ?_⟩
    obtain ⟨r, s⟩ := x
    dsimp only at e
    subst e
    exact hn r q h

theorem moreItems_some {f : Str → Option (Re × Str)} {a : Option (Re × Str)} {x : Re × Str} (h : moreItems f a = some x) :
    ∃ r q y, a = some (r, q) ∧ f q = some y ∧ x = (.seq r y.1, y.2) := by
  unfold moreItems at h
  split at h
  · next r q =>
    rw [Option.map_eq_some_iff] at h
    obtain ⟨y, h1, h2⟩ := h
    exact ⟨r, q, y, rfl, h1, h2.symm⟩
  · cases h

theorem closeGroup_some {hd : Head} {a : Option (Re × Str)} {x : Re × Str} (h : closeGroup hd a = some x) :
    ∃ r q, a = some (r, ')' :: q) ∧ quant (hd.wrap r) q = some x := by
  unfold closeGroup at h
  split at h
  · next r q => exact ⟨r, q, rfl, h⟩
  · cases h

/-- the beginning of an item in the general form -/
theorem parse_item_some {n : Nat} {s : Str} {x : Re × Str} (h : parse (n + 1) .item s = some x) :
    (∃ c q, head s = some (.one c, q) ∧ quant (.cls c) q = some x) ∨
    (∃ q, head s = some (.eos, q) ∧ quantHead q = none ∧ x = (.eos, q)) ∨
    (∃ hd q r q', (hd = .group ∨ (∃ m, hd = .named m) ∨ hd = .look) ∧ head s = some (hd, q) ∧ parse n .alts q = some (r, ')' :: q') ∧
      quant (hd.wrap r) q' = some x) := by
  rw [parse_item_eq] at h
  cases hh : head s with
  | none => rw [hh] at h; cases h
  | some y =>
    obtain ⟨hd, q⟩ := y
    rw [hh] at h
    have grp : ∀ hd, closeGroup hd (parse n .alts q) = some x → ∃ r q', parse n .alts q = some (r, ')' :: q') ∧ quant (hd.wrap r) q' = some x :=
      fun hd h => closeGroup_some h
    cases hd with
    | one c => exact Or.inl ⟨c, q, rfl, h⟩
    | eos =>
      refine Or.inr (Or.inl ⟨q, rfl, ?_⟩)
      dsimp only at h
      split at h
      · cases h
      · next hq => injection h with h; exact ⟨by simpa using hq, h.symm⟩
    | group => obtain ⟨r, q', h1, h2⟩ := grp _ h; exact Or.inr (Or.inr ⟨_, q, r, q', Or.inl rfl, rfl, h1, h2⟩)
    | named m => obtain ⟨r, q', h1, h2⟩ := grp _ h; exact Or.inr (Or.inr ⟨_, q, r, q', Or.inr (Or.inl ⟨m, rfl⟩), rfl, h1, h2⟩)
    | look => obtain ⟨r, q', h1, h2⟩ := grp _ h; exact Or.inr (Or.inr ⟨_, q, r, q', Or.inr (Or.inr rfl), rfl, h1, h2⟩)

theorem parse_item_group {n : Nat} {s q q' : Str} {hd : Head} {r : Re} (hg : hd = .group ∨ (∃ m, hd = .named m) ∨ hd = .look)
    (hh : head s = some (hd, q)) (h : parse n .alts q = some (r, ')' :: q')) : parse (n + 1) .item s = quant (hd.wrap r) q' := by
  rw [parse_item_eq, hh]
  rcases hg with rfl | ⟨m, rfl⟩ | rfl <;> simp [h, closeGroup]

theorem parse_suffix (n : Nat) : ∀ (m : Mode) (s : Str) (x : Re × Str), parse n m s = some x →
    ∃ w, (m = .item → w ≠ []) ∧ s = w ++ x.2 := by
  induction n with
  | zero => intro m s x h; simp [parse] at h
  | succ n ih =>
    intro m s x h
    cases m with
    | alts =>
      rw [parse] at h
      rcases moreAlts_some h with ⟨h, _⟩ | ⟨r, q, y, h1, h2, rfl⟩
      · obtain ⟨w, _, e⟩ := ih _ _ _ h; exact ⟨w, by simp, e⟩
      · obtain ⟨w, _, e⟩ := ih _ _ _ h1
        obtain ⟨w2, _, e2⟩ := ih _ _ _ h2
        exact ⟨w ++ '|' :: w2, by simp, by dsimp only at e e2 ⊢; rw [e, e2]; simp⟩
    | sequence =>
      rw [parse] at h
      split at h
      · injection h with h; subst h; exact ⟨[], by simp, rfl⟩
      · obtain ⟨r, q, y, h1, h2, rfl⟩ := moreItems_some h
        obtain ⟨w, _, e⟩ := ih _ _ _ h1
        obtain ⟨w2, _, e2⟩ := ih _ _ _ h2
        exact ⟨w ++ w2, by simp, by dsimp only at e e2 ⊢; rw [e, e2]; simp⟩
    | item =>
      rcases parse_item_some h with ⟨c, q, h1, h2⟩ | ⟨q, h1, _, rfl⟩ | ⟨hd, q, r, q', _, h1, h2, h3⟩
      · obtain ⟨w, hw, e⟩ := head_suffix _ _ h1
        obtain ⟨w2, e2⟩ := quant_suffix _ _ _ h2
        exact ⟨w ++ w2, by simp [hw], by dsimp only at e; rw [e, e2]; simp⟩
      · obtain ⟨w, hw, e⟩ := head_suffix _ _ h1
        exact ⟨w, fun _ => hw, e⟩
      · obtain ⟨w, hw, e⟩ := head_suffix _ _ h1
        obtain ⟨w2, _, e2⟩ := ih _ _ _ h2
        obtain ⟨w3, e3⟩ := quant_suffix _ _ _ h3
        exact ⟨w ++ w2 ++ ')' :: w3, by simp, by dsimp only at e e2; rw [e, e2, e3]; simp⟩

/-! ## Enough fuel -/

/-- rank of a mode -/
def Mode.rank : Mode → Nat
  | .alts => 3
  | .sequence => 2
  | .item => 1

theorem parse_bound (n : Nat) : ∀ (m : Mode) (s : Str) (x : Re × Str), parse n m s = some x →
    parse (3 * s.length + m.rank) m s = some x := by
  induction n with
  | zero => intro m s x h; simp [parse] at h
  | succ n ih =>
    intro m s x h
    cases m with
    | alts =>
      rw [parse] at h
      show parse (3 * s.length + 2 + 1) .alts s = some x
      rw [parse]
      rcases moreAlts_some h with ⟨h, hn⟩ | ⟨r, q, y, h1, h2, rfl⟩
      · rw [show parse (3 * s.length + 2) .sequence s = some x from ih _ _ _ h]
        obtain ⟨r, t⟩ := x
        unfold moreAlts
        split
        · next e => injection e with e; injection e with _ e; exact absurd e (hn _)
        · rfl
      · rw [show parse (3 * s.length + 2) .sequence s = some (r, '|' :: q) from ih _ _ _ h1]
        obtain ⟨w, _, e⟩ := parse_suffix _ _ _ _ h1
        have hl : q.length + 1 ≤ s.length := by rw [e]; simp
        have := parse_le (show 3 * q.length + Mode.rank .alts ≤ 3 * s.length + 2 by simp only [Mode.rank]; omega) (ih _ _ _ h2)
        simp [moreAlts, this]
    | sequence =>
      rw [parse] at h
      show parse (3 * s.length + 1 + 1) .sequence s = some x
      rw [parse]
      split at h
      · next he => rw [if_pos he]; exact h
      · next he =>
        rw [if_neg he]
        obtain ⟨r, q, y, h1, h2, rfl⟩ := moreItems_some h
        rw [show parse (3 * s.length + 1) .item s = some (r, q) from ih _ _ _ h1]
        obtain ⟨w, hw, e⟩ := parse_suffix _ _ _ _ h1
        have hl : q.length + 1 ≤ s.length := by
          have := List.length_pos_iff.2 (hw rfl)
          rw [e]; simp; omega
        have := parse_le (show 3 * q.length + Mode.rank .sequence ≤ 3 * s.length + 1 by simp only [Mode.rank]; omega) (ih _ _ _ h2)
        simp [moreItems, this]
    | item =>
      show parse (3 * s.length + 1) .item s = some x
      rcases parse_item_some h with ⟨c, q, h1, h2⟩ | ⟨q, h1, h2, rfl⟩ | ⟨hd, q, r, q', hg, h1, h2, h3⟩
      · rw [parse_item_eq, h1]; exact h2
      · rw [parse_item_eq, h1]; simp [h2]
      · obtain ⟨w, hw, e⟩ := head_suffix _ _ h1
        have hl : q.length + 1 ≤ s.length := by
          have := List.length_pos_iff.2 hw
          rw [e]; simp; omega
        have := parse_le (show 3 * q.length + Mode.rank .alts ≤ 3 * s.length by simp only [Mode.rank]; omega) (ih _ _ _ h2)
        rw [parse_item_group hg h1 this]; exact h3

theorem parseAll_iff (t : Str) (r : Re) : parseAll t = some r ↔ Parses .alts t r [] := by
  unfold parseAll
  constructor
  · intro h
    split at h
    · next r' e => injection h with h; subst h; exact ⟨_, e⟩
    · cases h
  · rintro ⟨n, h⟩
    rw [show parse (3 * t.length + 3) .alts t = some (r, []) from parse_bound _ _ _ _ h]

end ReText
end Py

namespace Py
namespace ReText
open Re

/-! ## Text behind a closing parenthesis -/

theorem digitRun_close (s q : Str) : digitRun (s ++ ')' :: q) = ((digitRun s).1, (digitRun s).2 ++ ')' :: q) := by
  induction s with
  | nil => simp [digitRun, isDigit]
  | cons c s ih => simp only [List.cons_append, digitRun]; split <;> simp [ih]

theorem braces_close (s q : Str) : braces (s ++ ')' :: q) = (braces s).map (fun x => (x.1, x.2.1, x.2.2 ++ ')' :: q)) := by
  unfold braces
  rw [digitRun_close]
  cases e : (digitRun s).2 with
  | nil => simp
  | cons c t =>
    by_cases h1 : c = '}'
    · subst h1; simp only [List.cons_append]; split <;> rfl
    · by_cases h2 : c = ','
      · subst h2
        simp only [List.cons_append]
        rw [digitRun_close]
        cases e2 : (digitRun t).2 with
        | nil => simp
        | cons d u =>
          by_cases h3 : d = '}'
          · subst h3; rfl
          · simp only [List.cons_append]
            split
            · next e => injection e with e _; exact absurd e h3
            · split
              · next e => injection e with e _; exact absurd e h3
              · rfl
      · simp only [List.cons_append]
        split
        · next e => injection e with e _; exact absurd e h1
        · next e => injection e with e _; exact absurd e h2
        · split
          · next e => injection e with e _; exact absurd e h1
          · next e => injection e with e _; exact absurd e h2
          · rfl

theorem quantHead_none (c : Char) (q : Str) (h : c ∉ ['*', '+', '?', '{']) : quantHead (c :: q) = none := by
  simp only [List.mem_cons, List.not_mem_nil, or_false, not_or] at h
  unfold quantHead
  split
  all_goals first
    | rfl
    | (next e => injection e with e _; simp_all)

theorem quantHead_close (s q : Str) : quantHead (s ++ ')' :: q) = (quantHead s).map (fun x => (x.1, x.2.1, x.2.2 ++ ')' :: q)) := by
  cases s with
  | nil => rfl
  | cons c s =>
    by_cases h : c ∈ ['*', '+', '?', '{']
    · simp only [List.mem_cons, List.not_mem_nil, or_false] at h
      rcases h with rfl | rfl | rfl | rfl
      · rfl
      · rfl
      · rfl
      · exact braces_close s q
    · rw [List.cons_append, quantHead_none c _ h, quantHead_none c _ h]; rfl

theorem lazyMark_close (s q : Str) : lazyMark (s ++ ')' :: q) = ((lazyMark s).1, (lazyMark s).2 ++ ')' :: q) := by
  cases s with
  | nil => rfl
  | cons c s =>
    by_cases h : c = '?'
    · subst h; rfl
    · have e : ∀ t : Str, lazyMark (c :: t) = (false, c :: t) := by
        intro t; unfold lazyMark; split
        · next e => injection e with e _; exact absurd e h
        · rfl
      rw [List.cons_append, e, e]; rfl

theorem quant_close (r : Re) (s q : Str) : quant r (s ++ ')' :: q) = (quant r s).map (fun x => (x.1, x.2 ++ ')' :: q)) := by
  unfold quant
  rw [quantHead_close]
  cases quantHead s with
  | none => rfl
  | some y =>
    obtain ⟨lo, hi, t⟩ := y
    simp only [Option.map_some, lazyMark_close, quantHead_close, Option.isSome_map]
    split
    · rfl
    · cases repeated (!(lazyMark t).1) lo hi r <;> rfl

theorem member_close (s q : Str) (x : Member × Str) (h : member s = some x) : member (s ++ ')' :: q) = some (x.1, x.2 ++ ')' :: q) := by
  cases s with
  | nil => cases h
  | cons c s =>
    by_cases hc : c = '\\'
    · subst hc
      cases s with
      | nil => cases h
      | cons d s =>
        simp only [member, List.cons_append, Option.map_eq_some_iff] at h ⊢
        obtain ⟨m, h1, rfl⟩ := h
        exact ⟨m, h1, rfl⟩
    · have e : ∀ t : Str, member (c :: t) = some (.ch c, t) := by
        intro t; unfold member; split
        · next e => injection e with e _; exact absurd e hc
        · next e => injection e with e _; exact absurd e hc
        · next e => injection e with e1 e2; rw [e1, e2]
        · next e => cases e
      rw [List.cons_append, e]
      rw [e] at h
      injection h with h; subst h; rfl

theorem rangeEnd_close (a : Member) (s q : Str) (x : CItem × Str) (h : rangeEnd a s = some x) :
    rangeEnd a (s ++ ')' :: q) = some (x.1, x.2 ++ ')' :: q) := by
  unfold rangeEnd at h ⊢
  split at h
  · next hm =>
    rw [member_close _ _ _ hm]
    dsimp only
    split at h
    · next hl => rw [if_pos hl]; injection h with h; subst h; rfl
    · cases h
  · cases h

/-- the three cases after a member of a set -/
theorem setNext_cases (r : Str) :
    (∃ q, r = '-' :: ']' :: q) ∨ (∃ q, r = '-' :: q ∧ q.head? ≠ some ']') ∨ r.head? ≠ some '-' := by
  by_cases h1 : ∃ u, r = '-' :: u
  · obtain ⟨u, rfl⟩ := h1
    by_cases h2 : ∃ v, u = ']' :: v
    · obtain ⟨v, rfl⟩ := h2
      exact Or.inl ⟨v, rfl⟩
    · refine Or.inr (Or.inl ⟨u, rfl, ?_⟩)
      cases u with
      | nil => simp
      | cons d u => intro e; injection e with e; exact h2 ⟨u, by rw [e]⟩
  · refine Or.inr (Or.inr ?_)
    cases r with
    | nil => simp
    | cons d u => intro e; injection e with e; exact h1 ⟨u, by rw [e]⟩

theorem setNext_range (f : Str → Option (List CItem × Str)) (m : Member) (q : Str) (h : q.head? ≠ some ']') :
    setNext f m ('-' :: q) =
      match rangeEnd m q with
      | none => none
      | some (i, q') => (f q').map (fun x => (i :: x.1, x.2)) := by
  unfold setNext
  split
  · next e => injection e with _ e; subst e; simp at h
  · next e => injection e with _ e; subst e; rfl
  · next hn => exact absurd rfl (hn q)

theorem setNext_one (f : Str → Option (List CItem × Str)) (m : Member) (r : Str) (h : r.head? ≠ some '-') :
    setNext f m r = (f r).map (fun x => (m.item :: x.1, x.2)) := by
  unfold setNext
  split
  · simp at h
  · simp at h
  · rfl

theorem head?_close {s : Str} {c : Char} (q : Str) (hc : c ≠ ')') (h : s.head? ≠ some c) : (s ++ ')' :: q).head? ≠ some c := by
  cases s with
  | nil => intro e; injection e with e; exact hc e.symm
  | cons d u => exact h

theorem setNext_close {f g : Str → Option (List CItem × Str)} (m : Member) (r q : Str) (x : List CItem × Str)
    (hf : ∀ s y, f s = some y → g (s ++ ')' :: q) = some (y.1, y.2 ++ ')' :: q)) (h : setNext f m r = some x) :
    setNext g m (r ++ ')' :: q) = some (x.1, x.2 ++ ')' :: q) := by
  rcases setNext_cases r with ⟨v, rfl⟩ | ⟨u, rfl, h3⟩ | h3
  · injection h with h; subst h; rfl
  · rw [setNext_range _ _ _ h3] at h
    rw [List.cons_append, setNext_range _ _ _ (head?_close q (by decide) h3)]
    cases hr : rangeEnd m u with
    | none => rw [hr] at h; cases h
    | some y =>
      rw [hr] at h
      rw [rangeEnd_close _ _ _ _ hr]
      dsimp only at h ⊢
      rw [Option.map_eq_some_iff] at h ⊢
      obtain ⟨z, hz, rfl⟩ := h
      exact ⟨_, hf _ _ hz, rfl⟩
  · rw [setNext_one _ _ _ h3] at h
    rw [setNext_one _ _ _ (head?_close q (by decide) h3)]
    rw [Option.map_eq_some_iff] at h ⊢
    obtain ⟨z, hz, rfl⟩ := h
    exact ⟨_, hf _ _ hz, rfl⟩

theorem setNext_mono {f g : Str → Option (List CItem × Str)} (m : Member) (r : Str) (x : List CItem × Str)
    (hf : ∀ s y, f s = some y → g s = some y) (h : setNext f m r = some x) : setNext g m r = some x := by
  rcases setNext_cases r with ⟨v, rfl⟩ | ⟨u, rfl, h3⟩ | h3
  · exact h
  · rw [setNext_range _ _ _ h3] at h ⊢
    cases hr : rangeEnd m u with
    | none => rw [hr] at h; cases h
    | some y =>
      rw [hr] at h
      dsimp only at h ⊢
      rw [Option.map_eq_some_iff] at h ⊢
      obtain ⟨z, hz, rfl⟩ := h
      exact ⟨_, hf _ _ hz, rfl⟩
  · rw [setNext_one _ _ _ h3] at h ⊢
    rw [Option.map_eq_some_iff] at h ⊢
    obtain ⟨z, hz, rfl⟩ := h
    exact ⟨_, hf _ _ hz, rfl⟩

theorem setItems_close (n : Nat) : ∀ (f : Bool) (s q : Str) (x : List CItem × Str), setItems n f s = some x →
    setItems n f (s ++ ')' :: q) = some (x.1, x.2 ++ ')' :: q) := by
  induction n with
  | zero => intro f s q x h; simp [setItems] at h
  | succ n ih =>
    intro f s q x h
    have hne : s ≠ [] := by
      obtain ⟨w, h1, h2⟩ := setItems_suffix _ _ _ _ h
      rw [h2]; simp [h1]
    obtain ⟨c, s', rfl⟩ := List.exists_cons_of_ne_nil hne
    rw [setItems] at h ⊢
    have e0 : ((c :: s') ++ ')' :: q).head? = (c :: s').head? := rfl
    rw [e0]
    split at h
    · next he => rw [if_pos he]; injection h with h; subst h; rfl
    · next he =>
      rw [if_neg he]
      split at h
      · cases h
      · next m r hm =>
        rw [member_close _ _ _ hm]
        exact setNext_close _ _ _ _ (fun s y hy => ih _ _ q _ hy) h

theorem setItems_mono (n : Nat) : ∀ (f : Bool) (s : Str) (x : List CItem × Str), setItems n f s = some x → setItems (n + 1) f s = some x := by
  induction n with
  | zero => intro f s x h; simp [setItems] at h
  | succ n ih =>
    intro f s x h
    rw [setItems] at h ⊢
    split at h
    · next he => rw [if_pos he]; exact h
    · next he =>
      rw [if_neg he]
      split at h
      · cases h
      · exact setNext_mono _ _ _ (fun s y hy => ih _ _ _ hy) h

theorem setItems_le {n k : Nat} (hk : n ≤ k) {f : Bool} {s : Str} {x : List CItem × Str} (h : setItems n f s = some x) :
    setItems k f s = some x := by
  induction hk with
  | refl => exact h
  | step _ ih => exact setItems_mono _ _ _ _ ih

theorem setText_cases (s : Str) : (∃ q, s = '^' :: q ∧ setText s = (setItems q.length true q).map (fun x => (.set true x.1, x.2))) ∨
    (s.head? ≠ some '^' ∧ setText s = (setItems s.length true s).map (fun x => (.set false x.1, x.2))) := by
  unfold setText
  split
  · next q => exact Or.inl ⟨q, rfl, rfl⟩
  · next hn =>
    refine Or.inr ⟨?_, rfl⟩
    cases s with
    | nil => simp
    | cons c s => intro e; injection e with e; exact hn s (by rw [e])

theorem setText_close (s q : Str) (x : CC × Str) (h : setText s = some x) : setText (s ++ ')' :: q) = some (x.1, x.2 ++ ')' :: q) := by
  rcases setText_cases s with ⟨t, rfl, e⟩ | ⟨hn, e⟩
  · rw [e, Option.map_eq_some_iff] at h
    obtain ⟨y, hy, rfl⟩ := h
    have := setItems_le (show t.length ≤ (t ++ ')' :: q).length by simp) (setItems_close _ _ _ q _ hy)
    show (setItems (t ++ ')' :: q).length true (t ++ ')' :: q)).map _ = _
    rw [this]; rfl
  · rw [e, Option.map_eq_some_iff] at h
    obtain ⟨y, hy, rfl⟩ := h
    have := setItems_le (show s.length ≤ (s ++ ')' :: q).length by simp) (setItems_close _ _ _ q _ hy)
    rcases setText_cases (s ++ ')' :: q) with ⟨u, e2, _⟩ | ⟨_, e2⟩
    · cases s with
      | nil => simp at e2
      | cons c s => injection e2 with e2 _; subst e2; simp at hn
    · rw [e2, this]; rfl

theorem untilGt_append (n q : Str) (h : '>' ∉ n) : untilGt (n ++ '>' :: q) = some (n, q) := by
  induction n with
  | nil => rfl
  | cons c n ih =>
    have hc : c ≠ '>' := by intro e; exact h (by simp [e])
    rw [List.cons_append]
    unfold untilGt
    split
    · next e => cases e
    · next e => injection e with e _; exact absurd e hc
    · next e => injection e with e1 e2; subst e1; subst e2; rw [ih (fun hm => h (by simp [hm]))]; rfl

theorem untilGt_none (s : Str) (n q : Str) (h : untilGt s = some (n, q)) : '>' ∉ n := by
  induction s generalizing n with
  | nil => cases h
  | cons c s ih =>
    unfold untilGt at h
    split at h
    · cases h
    · injection h with h; injection h with h1 _; subst h1; simp
    · next c' q' hc e =>
      injection e with e1 e2; subst e1; subst e2
      rw [Option.map_eq_some_iff] at h
      obtain ⟨y, hy, he⟩ := h
      injection he with h1 h2
      subst h1
      subst h2
      simp only [List.mem_cons, not_or]
      exact ⟨fun e => hc e.symm, ih y.1 hy⟩

end ReText
end Py

namespace Py
namespace ReText
open Re

/-- the beginnings of items one by one -/
theorem head_plain (c : Char) (q : Str) (h : c ∉ ['(', '[', '\\', '.', '$', '{', '^', '*', '+', '?', ')', '|']) :
    head (c :: q) = some (.one (.lit c), q) := by
  simp only [List.mem_cons, List.not_mem_nil, or_false, not_or] at h
  unfold head
  split
  case h_13 c' q' _ _ _ _ _ _ _ _ _ _ _ e =>
    injection e with e1 e2
    subst e1; subst e2
    rw [if_neg (by simp [h])]
  all_goals (next e => first | (cases e; done) | (injection e with e _; exfalso; simp_all))

theorem head_bad (c : Char) (q : Str) (h : c ∈ ['^', '*', '+', '?', ')', '|']) : head (c :: q) = none := by
  simp only [List.mem_cons, List.not_mem_nil, or_false] at h
  rcases h with rfl | rfl | rfl | rfl | rfl | rfl <;> rfl

theorem head_group (c : Char) (q : Str) (h : c ≠ '?') : head ('(' :: c :: q) = some (.group, c :: q) := by
  unfold head
  split
  all_goals first
    | rfl
    | (next e => injection e with e1 e; injection e with e _; first | exact absurd e h | cases e1)
    | (next e => injection e with e1 e; first | exact absurd e1 (by decide) | (subst e; rfl) | (subst e1; simp_all; done))
    | (next e => cases e; done)

theorem head_close (s q : Str) (x : Head × Str) (h : head s = some x) : head (s ++ ')' :: q) = some (x.1, x.2 ++ ')' :: q) := by
  cases s with
  | nil => cases h
  | cons c s =>
    by_cases h0 : c ∉ ['(', '[', '\\', '.', '$', '{', '^', '*', '+', '?', ')', '|']
    · rw [head_plain _ _ h0] at h
      rw [List.cons_append, head_plain _ _ h0]
      injection h with h; subst h; rfl
    · simp only [Classical.not_not] at h0
      by_cases h1 : c ∈ ['^', '*', '+', '?', ')', '|']
      · rw [head_bad _ _ h1] at h; cases h
      · simp only [List.mem_cons, List.not_mem_nil, or_false, not_or] at h0 h1
        rcases h0 with rfl | rfl | rfl | rfl | rfl | rfl | h0
        · cases s with
          | nil => injection h with h; subst h; rfl
          | cons d s =>
            by_cases hd : d = '?'
            · subst hd
              unfold head at h
              split at h
              · cases h
              · next e => injection e with _ e; injection e with _ e; subst e; injection h with h; subst h; rfl
              · next e => injection e with _ e; injection e with _ e; subst e; injection h with h; subst h; rfl
              · next u e =>
                injection e with _ e; injection e with _ e; subst e
                show namedHead (u ++ ')' :: q) = _
                unfold namedHead at h ⊢
                split at h
                · next n q' hu =>
                  split at h
                  · next hn =>
                    injection h with h; subst h
                    rw [untilGt_eq _ _ _ hu, List.append_assoc, List.cons_append, untilGt_append _ _ (untilGt_none _ _ _ hu)]
                    dsimp only
                    rw [if_pos hn]
                  · cases h
                · cases h
              · cases h
              · next hn e => injection e with _ e; subst e; exact absurd rfl (hn s)
              all_goals (next e => injection e with e _; first | exact absurd e (by decide) | (subst e; simp_all))
            · rw [head_group _ _ hd] at h
              rw [List.cons_append, List.cons_append, head_group _ _ hd]
              injection h with h; subst h; rfl
        · show (setText (s ++ ')' :: q)).map _ = _
          have h' : (setText s).map (fun x => (Head.one x.1, x.2)) = some x := h
          rw [Option.map_eq_some_iff] at h'
          obtain ⟨y, hy, rfl⟩ := h'
          rw [setText_close _ _ _ hy]; rfl
        · cases s with
          | nil => cases h
          | cons d s =>
            have h' : (escape d).map (fun x => (Head.one x, s)) = some x := h
            rw [Option.map_eq_some_iff] at h'
            obtain ⟨y, hy, rfl⟩ := h'
            show (escape d).map _ = _
            rw [hy]; rfl
        · injection h with h; subst h; rfl
        · injection h with h; subst h; rfl
        · have h' : (if (braces s).isSome then none else some (Head.one (.lit '{'), s)) = some x := h
          show (if (braces (s ++ ')' :: q)).isSome then none else some (Head.one (.lit '{'), s ++ ')' :: q)) = _
          rw [braces_close, Option.isSome_map]
          split at h'
          · cases h'
          · next hb => rw [if_neg hb]; injection h' with h'; subst h'; rfl
        · rcases h0 with rfl | rfl | rfl | rfl | rfl | rfl <;> simp at h1

theorem ends_close (s q : Str) : ends (s ++ ')' :: q) = ends s := by cases s <;> rfl

theorem parse_close (n : Nat) : ∀ (m : Mode) (s q : Str) (x : Re × Str), parse n m s = some x →
    parse n m (s ++ ')' :: q) = some (x.1, x.2 ++ ')' :: q) := by
  induction n with
  | zero => intro m s q x h; simp [parse] at h
  | succ n ih =>
    intro m s q x h
    cases m with
    | alts =>
      rw [parse] at h ⊢
      rcases moreAlts_some h with ⟨h, hn⟩ | ⟨r, u, y, h1, h2, rfl⟩
      · rw [ih _ _ q _ h]
        obtain ⟨r, t⟩ := x
        unfold moreAlts
        split
        · next e =>
          injection e with e; injection e with _ e
          cases t with
          | nil => injection e with e _; exact absurd e (by decide)
          | cons c t => injection e with e _; subst e; exact absurd rfl (hn t)
        · rfl
      · rw [ih _ _ q _ h1]
        simp only [List.cons_append, moreAlts]
        rw [ih _ _ q _ h2]; rfl
    | sequence =>
      rw [parse] at h ⊢
      rw [ends_close]
      split at h
      · next he => rw [if_pos he]; injection h with h; subst h; rfl
      · next he =>
        rw [if_neg he]
        obtain ⟨r, u, y, h1, h2, rfl⟩ := moreItems_some h
        rw [ih _ _ q _ h1]
        simp only [moreItems]
        rw [ih _ _ q _ h2]; rfl
    | item =>
      rcases parse_item_some h with ⟨c, u, h1, h2⟩ | ⟨u, h1, h2, rfl⟩ | ⟨hd, u, r, q', hg, h1, h2, h3⟩
      · rw [parse_item_eq, head_close _ _ _ h1]
        dsimp only
        rw [quant_close, h2]; rfl
      · rw [parse_item_eq, head_close _ _ _ h1]
        dsimp only
        rw [quantHead_close, h2]; rfl
      · have := ih _ _ q _ h2
        rw [parse_item_group hg (head_close _ q _ h1) this]
        show quant (hd.wrap r) (q' ++ ')' :: q) = _
        rw [quant_close, h3]; rfl

/-- A text that is an expression by itself is read in front of a closing parenthesis. -/
theorem Parses_close {t : Str} {r : Re} (h : parseAll t = some r) (q : Str) : Parses .alts (t ++ ')' :: q) r (')' :: q) := by
  obtain ⟨n, h⟩ := (parseAll_iff _ _).1 h
  exact ⟨n, parse_close n _ _ q _ h⟩

end ReText
end Py
