import Verif.Model.Match
import Verif.Spec.MatchStr
import Verif.Proofs.Regex
import Verif.Proofs.PyStr
/-!
# Proofs about replacing text
-/

namespace TTP
open Py Spec

namespace MatchFn

theorem replaceAux_skip (old new : Str) : ∀ (k : Nat) (s : Str), replaceAux old new s k = replaceAux old new (s.drop k) 0
  | 0, s => by simp
  | k + 1, [] => by simp [replaceAux]
  | k + 1, c :: cs => by rw [replaceAux, replaceAux_skip old new k cs, List.drop_succ_cons]

/-- nothing to replace at the beginning -/
theorem replaceAux_pre (old new : Str) (a s : Str) (h : ∀ k, k < a.length → ¬ old <+: (a ++ s).drop k) :
    replaceAux old new (a ++ s) 0 = a ++ replaceAux old new s 0 := by
  induction a with
  | nil => rfl
  | cons c cs ih =>
    rw [List.cons_append, replaceAux, if_neg]
    · rw [ih]
      · rfl
      · intro k hk; exact h (k + 1) (by simpa using hk)
    · intro hp
      exact h 0 (by simp) (List.isPrefixOf_iff_prefix.1 hp)

theorem replaceAux_hit (old new : Str) (h : old ≠ []) (b : Str) :
    replaceAux old new (old ++ b) 0 = new ++ replaceAux old new b 0 := by
  cases old with
  | nil => exact absurd rfl h
  | cons c cs =>
    rw [List.cons_append, replaceAux, if_pos]
    · rw [replaceAux_skip]; simp
    · exact List.isPrefixOf_iff_prefix.2 ⟨b, by simp⟩

theorem replaceAux_none (old new : Str) (s : Str) (h : ¬ old <:+: s) : replaceAux old new s 0 = s := by
  have := replaceAux_pre old new s [] (by
    intro k hk hp
    rw [List.append_nil] at hp
    exact h (hp.isInfix.trans (List.drop_suffix k s).isInfix))
  simpa [replaceAux] using this

theorem Replaced_sound (old new : Str) (ho : old ≠ []) (s t : Str) (h : Replaced old new s t) : replace s old new = t := by
  have he : old.isEmpty = false := by cases old with | nil => exact absurd rfl ho | cons _ _ => rfl
  unfold replace
  rw [he]
  simp only [Bool.false_eq_true, if_false]
  induction h with
  | none s h => exact replaceAux_none old new s h
  | next a b t hk hr ih =>
    rw [List.append_assoc] at hk ⊢
    rw [replaceAux_pre old new a _ hk, replaceAux_hit old new ho, ih, List.append_assoc]

/-- the first occurrence -/
theorem first_occ (old : Str) (s : Str) (h : old <:+: s) :
    ∃ a b, s = a ++ old ++ b ∧ ∀ k, k < a.length → ¬ old <+: s.drop k := by
  induction s with
  | nil =>
    have : old = [] := by simpa using h
    subst this
    exact ⟨[], [], rfl, by simp⟩
  | cons c cs ih =>
    by_cases hp : old <+: c :: cs
    · obtain ⟨b, hb⟩ := hp
      exact ⟨[], b, by simp [hb], by simp⟩
    · have hi : old <:+: cs := by
        rcases List.infix_cons_iff.1 h with h | h
        · exact absurd h hp
        · exact h
      obtain ⟨a, b, hs, hk⟩ := ih hi
      refine ⟨c :: a, b, by rw [hs]; rfl, ?_⟩
      intro k hk'
      cases k with
      | zero => simpa using hp
      | succ k => exact hk k (by simpa using hk')

theorem Replaced_total (old new : Str) (ho : old ≠ []) (n : Nat) (s : Str) (hn : s.length ≤ n) : ∃ t, Replaced old new s t := by
  induction n generalizing s with
  | zero =>
    have : s = [] := by cases s with | nil => rfl | cons _ _ => simp at hn
    subst this
    exact ⟨[], .none [] (by simpa using ho)⟩
  | succ n ih =>
    by_cases h : old <:+: s
    · obtain ⟨a, b, hs, hk⟩ := first_occ old s h
      have hl : b.length ≤ n := by
        have := congrArg List.length hs
        have h1 : 0 < old.length := List.length_pos_iff.2 ho
        simp at this; omega
      obtain ⟨t, ht⟩ := ih b hl
      subst hs
      exact ⟨_, .next a b t hk ht⟩
    · exact ⟨s, .none s h⟩

/-- the model of `str.replace` is the replacement of the specification -/
theorem Replaced_iff (old new : Str) (ho : old ≠ []) (s t : Str) : Replaced old new s t ↔ t = replace s old new := by
  constructor
  · intro h; exact (Replaced_sound old new ho s t h).symm
  · rintro rfl
    obtain ⟨t, ht⟩ := Replaced_total old new ho s.length s (Nat.le_refl _)
    rw [Replaced_sound old new ho s t ht]; exact ht

/-- apply a list of replacements -/
def runPairs (ps : List (Str × Str)) (s : Str) : Str := ps.foldl (fun s p => replace s p.1 p.2) s

theorem ReplacedSeq_iff (ps : List (Str × Str)) (h : ∀ p ∈ ps, p.1 ≠ []) (s t : Str) : ReplacedSeq ps s t ↔ t = runPairs ps s := by
  induction ps generalizing s t with
  | nil =>
    constructor
    · intro h; cases h; rfl
    · rintro rfl; exact .nil _
  | cons p ps ih =>
    obtain ⟨old, new⟩ := p
    have ho : old ≠ [] := h (old, new) (by simp)
    have ih := ih (fun p hp => h p (by simp [hp]))
    constructor
    · intro h
      cases h with
      | cons _ _ _ u _ _ h1 h2 =>
        rw [(Replaced_iff old new ho _ _).1 h1] at h2
        exact (ih _ _).1 h2
    · rintro rfl
      exact .cons old new s (replace s old new) _ ps ((Replaced_iff old new ho _ _).2 rfl) ((ih _ _).2 rfl)

theorem runPairs_append (a b : List (Str × Str)) (s : Str) : runPairs (a ++ b) s = runPairs b (runPairs a s) := by
  simp [runPairs]

theorem replaceEach_pairs (new : Str) (vs : List Val) (s : Str) : replaceEach new vs s = runPairs (listPairs new vs) s := by
  induction vs generalizing s with
  | nil => rfl
  | cons v vs ih =>
    cases v <;> simp only [replaceEach, ih, listPairs, List.flatMap_cons, List.nil_append, List.cons_append] <;> rfl

theorem replaceDict_pairs (d : List (Key × Val)) (hk : ∀ kv ∈ d, ∃ k, kv.1 = Key.s k) (s : Str) :
    replaceDict d s =
      .ok (runPairs (dictPairs (d.filterMap strEntry)) s) := by
  induction d generalizing s with
  | nil => rfl
  | cons kv d ih =>
    obtain ⟨key, v⟩ := kv
    obtain ⟨k, hkk⟩ := hk _ (List.mem_cons_self)
    simp only at hkk
    subst hkk
    have ih := fun s => ih (fun kv h => hk kv (by simp [h])) s
    have e : List.filterMap strEntry ((Key.s k, v) :: d) = (k, v) :: d.filterMap strEntry := rfl
    rw [e]
    cases v <;> simp only [replaceDict, ih, dictPairs, List.flatMap_cons, List.nil_append, runPairs_append,
      replaceEach_pairs] <;> rfl

theorem replaceOne_pairs (vars : Dict Str Val) (new old s : Str)
    (hk : ∀ d, Dict.get? vars old = some (.dict d) → ∀ kv ∈ d, ∃ k, kv.1 = Key.s k) :
    replaceOne vars new old s = .ok (runPairs (argPairs vars new old) s) := by
  unfold replaceOne argPairs
  cases h : Dict.get? vars old with
  | none => rfl
  | some v =>
    cases v with
    | list vs => simp only [replaceEach_pairs]; rfl
    | dict d => exact replaceDict_pairs d (hk d h) s
    | _ => rfl

theorem replaceLoop_pairs (vars : Dict Str Val) (new : Str) (olds : List Str) (s : Str)
    (hk : ∀ old ∈ olds, ∀ d, Dict.get? vars old = some (.dict d) → ∀ kv ∈ d, ∃ k, kv.1 = Key.s k) :
    replaceLoop vars new olds s = .ok (runPairs (olds.flatMap (argPairs vars new)) s) := by
  induction olds generalizing s with
  | nil => rfl
  | cons old olds ih =>
    rw [replaceLoop, replaceOne_pairs vars new old s (hk old (by simp)), List.flatMap_cons, runPairs_append]
    exact ih _ (fun o ho => hk o (by simp [ho]))

theorem allStrs_map (ss : List Str) : allStrs (ss.map Val.str) = .ok ss := by
  induction ss with
  | nil => rfl
  | cons s ss ih => simp only [List.map_cons, allStrs, reqStr, ih]; rfl

/-! ## Regular expressions -/

theorem subN_skip (r : Re) (new : Str) (left : Option Nat) : ∀ (k : Nat) (s : Str), k ≤ s.length →
    subN r new s k left = subN r new (s.drop k) 0 left
  | 0, s, _ => by simp
  | k + 1, [], h => by simp at h
  | k + 1, c :: cs, h => by rw [subN, subN_skip r new left k cs (by simpa using h), List.drop_succ_cons]

theorem subN_limit (r : Re) (new s : Str) : subN r new s 0 (some 0) = s := by
  induction s with
  | nil => simp [subN]
  | cons c cs ih => rw [subN, if_pos rfl, ih]

theorem firstAt_none (r : Re) (s : Str) : firstAt r s = none ↔ Re.run r s = [] := by
  unfold firstAt
  cases Re.run r s <;> simp

theorem subN_pre (r : Re) (new a s : Str) (left : Option Nat) (h : ∀ k, k < a.length → firstAt r ((a ++ s).drop k) = none) :
    subN r new (a ++ s) 0 left = a ++ subN r new s 0 left := by
  induction a with
  | nil => rfl
  | cons c cs ih =>
    have h0 : Re.run r (c :: (cs ++ s)) = [] := (firstAt_none _ _).1 (h 0 (by simp))
    rw [List.cons_append, subN]
    have ih := ih (fun k hk => h (k + 1) (by simpa using hk))
    rw [h0, ih]
    split <;> rfl

theorem subN_hit (r : Re) (new m b : Str) (left : Option Nat) (hm : m ≠ []) (hl : left ≠ some 0) (h : firstAt r (m ++ b) = some m) :
    subN r new (m ++ b) 0 left = new ++ subN r new b 0 (left.map (· - 1)) := by
  cases m with
  | nil => exact absurd rfl hm
  | cons c cs =>
    rw [List.cons_append, subN, if_neg hl]
    unfold firstAt at h
    rw [List.cons_append] at h
    cases hr : Re.run r (c :: (cs ++ b)) with
    | nil => rw [hr] at h; cases h
    | cons x xs =>
      rw [hr] at h
      have hx : x.1 = c :: cs := by simpa using h
      simp only [hx, List.isEmpty_cons, Bool.false_eq_true, if_false]
      rw [subN_skip _ _ _ _ _ (by simp)]
      simp

theorem ReReplaced_sound (r : Re) (new : Str) (hne : ∀ s, firstAt r s ≠ some []) (n : Option Nat) (s t : Str) (h : ReReplaced r new n s t) :
    subN r new s 0 n = t := by
  induction h with
  | limit s => exact subN_limit r new s
  | none n s h =>
    have := subN_pre r new s [] n (by intro k hk; rw [List.append_nil]; exact h k (Nat.le_of_lt hk))
    rw [List.append_nil] at this
    rw [this]
    have h0 := (firstAt_none r []).1 (by simpa using h s.length (Nat.le_refl _))
    simp [subN, h0]
  | next n a m b t hn hk hm hr ih =>
    have hmne : m ≠ [] := by intro e; exact hne _ (by rw [hm, e])
    rw [List.append_assoc] at hk ⊢
    rw [subN_pre r new a _ n hk, subN_hit r new m b n hmne hn hm, ih, List.append_assoc]

theorem first_match (r : Re) (s : Str) : (∀ k, k ≤ s.length → firstAt r (s.drop k) = none) ∨
    ∃ a m b, s = a ++ m ++ b ∧ (∀ k, k < a.length → firstAt r (s.drop k) = none) ∧ firstAt r (m ++ b) = some m := by
  induction s with
  | nil =>
    cases h : firstAt r [] with
    | none => exact .inl (by intro k hk; simpa using h)
    | some m =>
      refine .inr ⟨[], m, [], ?_, by simp, ?_⟩
      · unfold firstAt at h
        cases hr : Re.run r [] with
        | nil => rw [hr] at h; cases h
        | cons x xs =>
          have := Re.run_split r [] x (by rw [hr]; simp)
          rw [hr] at h
          have hx : x.1 = m := by simpa using h
          rw [hx] at this
          have := List.append_eq_nil_iff.1 this
          simp [this.1]
      · have : m = [] := by
          unfold firstAt at h
          cases hr : Re.run r [] with
          | nil => rw [hr] at h; cases h
          | cons x xs =>
            have := Re.run_split r [] x (by rw [hr]; simp)
            rw [hr] at h
            have hx : x.1 = m := by simpa using h
            rw [hx] at this
            exact (List.append_eq_nil_iff.1 this).1
        rw [this] at h ⊢; exact h
  | cons c cs ih =>
    cases h : firstAt r (c :: cs) with
    | some m =>
      unfold firstAt at h
      cases hr : Re.run r (c :: cs) with
      | nil => rw [hr] at h; cases h
      | cons x xs =>
        have := Re.run_split r _ x (by rw [hr]; simp)
        rw [hr] at h
        have hx : x.1 = m := by simpa using h
        rw [hx] at this
        refine .inr ⟨[], m, x.2.1, by simp [this], by simp, ?_⟩
        unfold firstAt
        rw [this, hr]; simpa using hx
    | none =>
      rcases ih with ih | ⟨a, m, b, hs, hk, hm⟩
      · refine .inl ?_
        intro k hk
        cases k with
        | zero => simpa using h
        | succ k => exact ih k (by simpa using hk)
      · refine .inr ⟨c :: a, m, b, by rw [hs]; rfl, ?_, hm⟩
        intro k hk'
        cases k with
        | zero => simpa using h
        | succ k => exact hk k (by simpa using hk')

theorem ReReplaced_total (r : Re) (new : Str) (hne : ∀ s, firstAt r s ≠ some []) (l : Nat) (n : Option Nat) (s : Str) (hn : s.length ≤ l) :
    ∃ t, ReReplaced r new n s t := by
  induction l generalizing s n with
  | zero =>
    have : s = [] := by cases s with | nil => rfl | cons _ _ => simp at hn
    subst this
    refine ⟨[], .none n [] ?_⟩
    intro k hk
    rcases first_match r [] with h | ⟨a, m, b, hs, _, hm⟩
    · exact h k hk
    · have := List.append_eq_nil_iff.1 hs.symm
      have h2 := List.append_eq_nil_iff.1 this.1
      exact absurd (by rw [hm, h2.2]) (hne _)
  | succ l ih =>
    by_cases h0 : n = some 0
    · exact ⟨s, h0 ▸ .limit s⟩
    · rcases first_match r s with h | ⟨a, m, b, hs, hk, hm⟩
      · exact ⟨s, .none n s h⟩
      · have hmne : m ≠ [] := by intro e; exact hne _ (by rw [hm, e])
        have hl : b.length ≤ l := by
          have := congrArg List.length hs
          have h1 : 0 < m.length := List.length_pos_iff.2 hmne
          simp at this; omega
        obtain ⟨t, ht⟩ := ih (n.map (· - 1)) b hl
        subst hs
        exact ⟨_, .next n a m b t h0 hk hm ht⟩

theorem ReReplaced_iff (r : Re) (new : Str) (hne : ∀ s, firstAt r s ≠ some []) (n : Option Nat) (s t : Str) :
    ReReplaced r new n s t ↔ t = subN r new s 0 n := by
  constructor
  · intro h; exact (ReReplaced_sound r new hne n s t h).symm
  · rintro rfl
    obtain ⟨t, ht⟩ := ReReplaced_total r new hne s.length n s (Nat.le_refl _)
    rw [ReReplaced_sound r new hne n s t ht]; exact ht

/-- literal text as a regular expression -/
theorem firstAt_lits (w s : Str) : firstAt (Re.lits w) s = if w <+: s then some w else none := by
  unfold firstAt
  cases hr : Re.run (Re.lits w) s with
  | nil =>
    rw [if_neg]
    · rfl
    · rintro ⟨b, hb⟩
      have : (w, b, ([] : Re.Caps)) ∈ Re.run (Re.lits w) s := (Re.mem_lits w s _).2 ⟨rfl, hb, rfl⟩
      rw [hr] at this; cases this
  | cons x xs =>
    have := (Re.mem_lits w s x).1 (by rw [hr]; simp)
    rw [if_pos ⟨_, this.2.1⟩]
    simp [this.1]

/-! ## Globs -/

theorem globRe_iff (p s : Str) : (∃ h ∈ Re.run (globRe p) s, h.2.1 = []) ↔ Globs p s := by
  induction p generalizing s with
  | nil =>
    simp only [globRe, Re.mem_eps]
    constructor
    · rintro ⟨h, rfl, h2⟩; simp only at h2; subst h2; exact .nil
    · intro h; cases h; exact ⟨_, rfl, rfl⟩
  | cons c p ih =>
    by_cases hs : c = '*'
    · subst hs
      rw [globRe]
      constructor
      · rintro ⟨h, hm, h0⟩
        obtain ⟨h1, m1, h2, m2, rfl⟩ := (Re.mem_seq _ _ _ _).1 hm
        have := Re.run_split _ _ _ m1
        rw [← this]
        exact .star _ _ _ ((ih _).1 ⟨h2, m2, h0⟩)
      · intro h
        cases h with
        | star a s' _ h =>
          obtain ⟨h2, m2, h0⟩ := (ih _).2 h
          refine ⟨_, (Re.mem_seq _ _ _ _).2 ⟨(a, s', []), ?_, h2, m2, rfl⟩, h0⟩
          rw [Re.mem_star_cls]
          exact ⟨fun _ _ => rfl, rfl, rfl⟩
        | char _ _ _ h1 _ _ => exact absurd rfl h1
    · by_cases hq : c = '?'
      · subst hq
        rw [globRe]
        constructor
        · rintro ⟨h, hm, h0⟩
          obtain ⟨h1, m1, h2, m2, rfl⟩ := (Re.mem_seq _ _ _ _).1 hm
          obtain ⟨x, xs, rfl, _, hh⟩ := (Re.mem_cls _ _ _).1 m1
          subst hh
          exact .one _ _ _ ((ih _).1 ⟨h2, m2, h0⟩)
        · intro h
          cases h with
          | one x s' _ h =>
            obtain ⟨h2, m2, h0⟩ := (ih _).2 h
            exact ⟨_, (Re.mem_seq _ _ _ _).2 ⟨([x], s', []), (Re.mem_cls _ _ _).2 ⟨x, s', rfl, rfl, rfl⟩, h2, m2, rfl⟩, h0⟩
          | char _ _ _ _ h1 _ => exact absurd rfl h1
      · have e : globRe (c :: p) = .seq (.cls (.lit c)) (globRe p) := by
          rw [globRe.eq_def]
          split <;> simp_all
        rw [e]
        constructor
        · rintro ⟨h, hm, h0⟩
          obtain ⟨h1, m1, h2, m2, rfl⟩ := (Re.mem_seq _ _ _ _).1 hm
          obtain ⟨x, xs, rfl, hx, hh⟩ := (Re.mem_cls _ _ _).1 m1
          subst hh
          have : c = x := by simpa [CC.test] using hx
          subst this
          exact .char _ _ _ hs hq ((ih _).1 ⟨h2, m2, h0⟩)
        · intro h
          cases h with
          | star => exact absurd rfl hs
          | one => exact absurd rfl hq
          | char _ s' _ _ _ h =>
            obtain ⟨h2, m2, h0⟩ := (ih _).2 h
            exact ⟨_, (Re.mem_seq _ _ _ _).2 ⟨([c], s', []), (Re.mem_cls _ _ _).2 ⟨c, s', rfl, by simp [CC.test], rfl⟩, h2, m2, rfl⟩, h0⟩

theorem fnmatch_iff (data p : Str) : fnmatch data p = true ↔ Globs p data := by
  rw [← globRe_iff]
  simp [fnmatch, List.any_eq_true]

end MatchFn
end TTP
