import Verif.Spec.Extend
import Verif.Model.New
import Verif.Proofs.Save
import Verif.Proofs.PyStr
/-!
# Lemmas for extend tags
-/

namespace TTP
open Py Spec

/-! ## Settled elements -/

theorem settledAll_iff (l : List Xml) : SettledAll l ↔ ∀ x ∈ l, Settled x := by
  induction l with
  | nil => exact ⟨fun _ => by simp, fun _ => .nil⟩
  | cons x l ih =>
    constructor
    · rintro ⟨⟩
      rename_i h1 h2
      intro y hy
      rcases List.mem_cons.1 hy with rfl | hy
      · exact h1
      · exact ih.1 h2 y hy
    · intro h
      exact .cons (h x (by simp)) (ih.2 (fun y hy => h y (by simp [hy])))

/-- the loop at an element -/
theorem loop_cons (ext) (isList top : Bool) (done rest : List Xml) (text : Option Str) (tag : Str) (a : Dict Str Str) (t : Option Str)
    (cs : List Xml) (tl : Option Str) : extendLoop ext isList top done (.mk tag a t cs tl :: rest) text =
    if tag = c!"extend" then ext isList top done (.mk tag a t cs tl) rest text
    else if tag = c!"group" then (extendLoop ext false false [] cs t).bind (fun r =>
      extendLoop ext isList top (done ++ [.mk tag a r.1 r.2 tl]) rest text)
    else extendLoop ext isList top (done ++ [.mk tag a t cs tl]) rest text := by
  rw [extendLoop.eq_def]
  dsimp only
  have : (Xml.mk tag a t cs tl).tag = tag := rfl
  rw [this, extendGroup.eq_def]
  split
  · rfl
  · split
    · dsimp only
      cases extendLoop ext false false [] cs t <;> rfl
    · rfl

mutual
/-- the loop goes over a settled element -/
theorem loop_settled (ext) (isList top : Bool) : ∀ (x : Xml), Settled x → ∀ (done rest : List Xml) (t : Option Str),
    extendLoop ext isList top done (x :: rest) t = extendLoop ext isList top (done ++ [x]) rest t
  | .mk tag a s cs tl, h, done, rest, t => by
    cases h with
    | mk h1 h2 =>
      rw [loop_cons, if_neg h1]
      by_cases hg : tag = c!"group"
      · rw [if_pos hg]
        have := loop_settledAll ext false false cs (h2 hg) [] [] s
        rw [List.append_nil] at this
        rw [this, extendLoop.eq_def]
        simp [pure_ok, Except.bind]
      · rw [if_neg hg]
/-- the same for lists -/
theorem loop_settledAll (ext) (isList top : Bool) : ∀ (l : List Xml), SettledAll l → ∀ (done rest : List Xml) (t : Option Str),
    extendLoop ext isList top done (l ++ rest) t = extendLoop ext isList top (done ++ l) rest t
  | [], _, done, rest, t => by simp
  | x :: l, h, done, rest, t => by
    cases h with
    | cons h1 h2 =>
      rw [List.cons_append, loop_settled ext isList top x h1 done (l ++ rest) t, loop_settledAll ext isList top l h2 (done ++ [x]) rest t]
      simp
end

theorem handle_loop (w : World) (X : ExtCtx) (n : Nat) : ∃ ext, handleExtend w X n = extendLoop ext := by
  cases n with
  | zero => exact ⟨_, rfl⟩
  | succ n => exact ⟨_, rfl⟩

theorem handle_settledAll (w : World) (X : ExtCtx) (n : Nat) (isList top : Bool) (l : List Xml) (h : SettledAll l) (done rest : List Xml) (t : Option Str) :
    handleExtend w X n isList top done (l ++ rest) t = handleExtend w X n isList top (done ++ l) rest t := by
  obtain ⟨ext, he⟩ := handle_loop w X n
  rw [he]; exact loop_settledAll ext isList top l h done rest t

theorem handle_nil (w : World) (X : ExtCtx) (n : Nat) (isList top : Bool) (done : List Xml) (t : Option Str) :
    handleExtend w X n isList top done [] t = .ok (t, done) := by
  obtain ⟨ext, he⟩ := handle_loop w X n
  rw [he, extendLoop.eq_def]; rfl

theorem handle_settled_id (w : World) (X : ExtCtx) (n : Nat) (isList top : Bool) (l : List Xml) (h : SettledAll l) (done : List Xml) (t : Option Str) :
    handleExtend w X n isList top done l t = .ok (t, done ++ l) := by
  have := handle_settledAll w X n isList top l h done [] t
  rw [List.append_nil] at this
  rw [this, handle_nil]

/-! ## Filters -/

theorem mem_filterNames (a : Dict Str Str) (attr n : Str) : n ∈ filterNames a attr ↔ Lists a attr n := by
  unfold filterNames Lists
  simp only [List.mem_filter, List.mem_map, decide_eq_true_eq]
  constructor
  · rintro ⟨⟨i, hi, e⟩, hn⟩
    refine ⟨hn, ?_⟩
    cases hg : Dict.get? a attr with
    | none =>
      rw [hg] at hi
      have : i = [] := by
        have e : splitC ',' ((none : Option Str).getD []) = [[]] := by decide
        rw [e] at hi; simpa using hi
      subst this
      exact absurd (show strip [] = [] from rfl) (by rw [e]; exact hn)
    | some v => rw [hg] at hi; exact ⟨v, rfl, i, hi, e⟩
  · rintro ⟨hn, v, hv, i, hi, e⟩
    exact ⟨⟨i, by rw [hv]; exact hi, e⟩, hn⟩

theorem filterNames_ne (a : Dict Str Str) (attr : Str) : filterNames a attr ≠ [] ↔ ∃ n, Lists a attr n := by
  constructor
  · intro h
    obtain ⟨n, l, e⟩ := List.exists_cons_of_ne_nil h
    exact ⟨n, (mem_filterNames a attr n).1 (by rw [e]; simp)⟩
  · rintro ⟨n, hn⟩ h
    have := (mem_filterNames a attr n).2 hn
    rw [h] at this; simp at this

theorem nameIn_iff (x : Xml) (ns : List Str) : nameIn x ns = true ↔ ∃ n, Dict.get? x.attrib c!"name" = some n ∧ n ∈ ns := by
  unfold nameIn
  cases h : Dict.get? x.attrib c!"name" <;> simp

/-- what one of the attributes says about an element -/
theorem chosen_iff (a : Dict Str Str) (attr : Str) (k : Nat) (x : Xml) (hne : filterNames a attr ≠ []) (hg : attr ≠ c!"groups") :
    ChosenBy a attr k x ↔ nameIn x (filterNames a attr) = true := by
  rw [nameIn_iff]
  constructor
  · intro h
    rcases h ((filterNames_ne a attr).1 hne) with ⟨n, h1, h2⟩ | ⟨h1, _⟩
    · exact ⟨n, h1, (mem_filterNames a attr n).2 h2⟩
    · exact absurd h1 hg
  · rintro ⟨n, h1, h2⟩ _
    exact Or.inl ⟨n, h1, (mem_filterNames a attr n).1 h2⟩

theorem chosen_groups (a : Dict Str Str) (k : Nat) (x : Xml) (hne : filterNames a c!"groups" ≠ []) :
    ChosenBy a c!"groups" k x ↔ (nameIn x (filterNames a c!"groups") || decide (natStr k ∈ filterNames a c!"groups")) = true := by
  rw [Bool.or_eq_true, nameIn_iff, decide_eq_true_eq]
  constructor
  · intro h
    rcases h ((filterNames_ne a _).1 hne) with ⟨n, h1, h2⟩ | ⟨_, h2⟩
    · exact Or.inl ⟨n, h1, (mem_filterNames a _ n).2 h2⟩
    · exact Or.inr ((mem_filterNames a _ _).2 h2)
  · rintro (⟨n, h1, h2⟩ | h2) _
    · exact Or.inl ⟨n, h1, (mem_filterNames a _ n).1 h2⟩
    · exact Or.inr ⟨rfl, (mem_filterNames a _ _).1 h2⟩

theorem chosen_all (a : Dict Str Str) (attr : Str) (k : Nat) (x : Xml) (he : filterNames a attr = []) : ChosenBy a attr k x := by
  intro h
  exact absurd he ((filterNames_ne a attr).2 h)

instance (x : Xml) : Decidable (GroupTag x) := inferInstanceAs (Decidable (_ ∈ _))

/-- number of groups after the element -/
def nextK (k : Nat) (x : Xml) : Nat := if GroupTag x then k + 1 else k

theorem takenOf_keep {top : Bool} {a : Dict Str Str} {k : Nat} {x : Xml} {xs ys : List Xml} (h : Taken top a k x)
    (r : TakenOf top a (nextK k x) xs ys) : TakenOf top a k (x :: xs) (x :: ys) :=
  .keep h (fun g => by simp [nextK, g]) (fun g => by simp [nextK, g]) r

theorem takenOf_drop {top : Bool} {a : Dict Str Str} {k : Nat} {x : Xml} {xs ys : List Xml} (h : ¬ Taken top a k x)
    (r : TakenOf top a (nextK k x) xs ys) : TakenOf top a k (x :: xs) ys :=
  .drop h (fun g => by simp [nextK, g]) (fun g => by simp [nextK, g]) r

theorem nested_taken (a : Dict Str Str) (cs : List Xml) : ∀ (n k : Nat), (filterNames a c!"groups" = [] ∨ n = k) →
    TakenOf false a k cs (filterNested (filterNames a c!"groups") n cs) := by
  induction cs with
  | nil => intro n k _; exact .nil
  | cons x cs ih =>
    intro n k hn
    rw [filterNested.eq_def]
    dsimp only
    have ht : Taken false a k x ↔ x.tag = c!"extend" ∨ (GroupTag x ∧ ChosenBy a c!"groups" k x) := by simp [Taken]
    by_cases hg : x.tag ∈ [c!"g", c!"grp", c!"group"]
    · rw [if_pos hg]
      have hne : x.tag ≠ c!"extend" := by intro e; rw [e] at hg; exact absurd hg (by decide)
      have hk : nextK k x = k + 1 := if_pos hg
      by_cases hf : filterNames a c!"groups" = []
      · rw [if_neg (by simp [hf])]
        exact takenOf_keep (ht.2 (Or.inr ⟨hg, chosen_all _ _ _ _ hf⟩)) (ih n _ (Or.inl hf))
      · have hnk : n = k := by rcases hn with h | h; exact absurd h hf; exact h
        subst hnk
        rw [if_pos hf]
        split
        · rename_i hc
          exact takenOf_keep (ht.2 (Or.inr ⟨hg, (chosen_groups a n x hf).2 hc⟩)) (by rw [hk]; exact ih _ _ (Or.inr rfl))
        · rename_i hc
          refine takenOf_drop ?_ (by rw [hk]; exact ih _ _ (Or.inr rfl))
          intro h
          rcases ht.1 h with h | ⟨_, h⟩
          · exact hne h
          · exact hc ((chosen_groups a n x hf).1 h)
    · rw [if_neg hg]
      have hk : nextK k x = k := if_neg hg
      by_cases he : x.tag = c!"extend"
      · rw [if_pos he]
        exact takenOf_keep (ht.2 (Or.inl he)) (by rw [hk]; exact ih _ _ hn)
      · rw [if_neg he]
        refine takenOf_drop ?_ (by rw [hk]; exact ih _ _ hn)
        intro h
        rcases ht.1 h with h | ⟨h, _⟩
        · exact he h
        · exact hg h

theorem taken_top (a : Dict Str Str) (k : Nat) (x : Xml) : Taken true a k x ↔
    (x.tag ∈ [c!"i", c!"in", c!"input"] → ChosenBy a c!"inputs" k x) ∧ (x.tag ∈ [c!"v", c!"vars", c!"variables"] → ChosenBy a c!"vars" k x) ∧
    (x.tag ∈ [c!"g", c!"grp", c!"group"] → ChosenBy a c!"groups" k x) ∧ (x.tag = c!"lookup" → ChosenBy a c!"lookups" k x) ∧
    (x.tag ∈ [c!"o", c!"out", c!"output"] → ChosenBy a c!"outputs" k x) := by
  unfold Taken choosers
  rw [if_pos rfl]
  constructor
  · intro h
    refine ⟨h (c!"inputs", [c!"i", c!"in", c!"input"]) (by simp), h (c!"vars", [c!"v", c!"vars", c!"variables"]) (by simp),
      h (c!"groups", [c!"g", c!"grp", c!"group"]) (by simp), fun e => h (c!"lookups", [c!"lookup"]) (by simp) (by simp [e]),
      h (c!"outputs", [c!"o", c!"out", c!"output"]) (by simp)⟩
  · rintro ⟨h1, h2, h3, h4, h5⟩ c hc
    simp only [List.mem_cons, List.not_mem_nil, or_false] at hc
    rcases hc with rfl | rfl | rfl | rfl | rfl
    · exact h1
    · exact h2
    · exact h3
    · intro h; exact h4 (by simpa using h)
    · exact h5

theorem top_taken (a : Dict Str Str) (cs : List Xml) : ∀ (n k : Nat), (filterNames a c!"groups" = [] ∨ n = k) →
    TakenOf true a k cs (filterTop (filterNames a c!"inputs") (filterNames a c!"vars") (filterNames a c!"groups") (filterNames a c!"lookups")
      (filterNames a c!"outputs") n cs) := by
  induction cs with
  | nil => intro n k _; exact .nil
  | cons x cs ih =>
    intro n k hn
    rw [filterTop.eq_def]
    dsimp only
    have ht := taken_top a k x
    have disj : ∀ (l l' : List Str), x.tag ∈ l → (∀ t ∈ l, t ∉ l') → x.tag ∉ l' := fun l l' h h' => h' _ h
    have disj1 : ∀ (l : List Str), x.tag ∈ l → c!"lookup" ∉ l → x.tag ≠ c!"lookup" := by
      intro l h h' e; rw [e] at h; exact h' h
    have kg : x.tag ∉ [c!"g", c!"grp", c!"group"] → nextK k x = k := fun h => if_neg h
    by_cases h1 : x.tag ∈ [c!"i", c!"in", c!"input"]
    · have d2 := disj _ [c!"v", c!"vars", c!"variables"] h1 (by decide)
      have d3 := disj _ [c!"g", c!"grp", c!"group"] h1 (by decide)
      have d4 := disj1 _ h1 (by decide)
      have d5 := disj _ [c!"o", c!"out", c!"output"] h1 (by decide)
      have ht' : Taken true a k x ↔ ChosenBy a c!"inputs" k x := by
        rw [ht]; exact ⟨fun h => h.1 h1, fun h => ⟨fun _ => h, fun e => absurd e d2, fun e => absurd e d3, fun e => absurd e d4, fun e => absurd e d5⟩⟩
      by_cases hf : filterNames a c!"inputs" = []
      · rw [if_neg (by simp [hf]), if_neg (fun e => d2 e.2), if_neg (fun e => d3 e.2), if_neg (fun e => d4 e.2), if_neg (fun e => d5 e.2)]
        exact takenOf_keep (ht'.2 (chosen_all _ _ _ _ hf)) (by rw [kg d3]; exact ih _ _ hn)
      · rw [if_pos ⟨hf, h1⟩]
        have hc := chosen_iff a c!"inputs" k x hf (by decide)
        split
        · rename_i e; exact takenOf_keep (ht'.2 (hc.2 e)) (by rw [kg d3]; exact ih _ _ hn)
        · rename_i e; exact takenOf_drop (fun h => e (hc.1 (ht'.1 h))) (by rw [kg d3]; exact ih _ _ hn)
    rw [if_neg (fun e => h1 e.2)]
    by_cases h2 : x.tag ∈ [c!"v", c!"vars", c!"variables"]
    · have d3 := disj _ [c!"g", c!"grp", c!"group"] h2 (by decide)
      have d4 := disj1 _ h2 (by decide)
      have d5 := disj _ [c!"o", c!"out", c!"output"] h2 (by decide)
      have ht' : Taken true a k x ↔ ChosenBy a c!"vars" k x := by
        rw [ht]; exact ⟨fun h => h.2.1 h2, fun h => ⟨fun e => absurd e h1, fun _ => h, fun e => absurd e d3, fun e => absurd e d4, fun e => absurd e d5⟩⟩
      by_cases hf : filterNames a c!"vars" = []
      · rw [if_neg (by simp [hf]), if_neg (fun e => d3 e.2), if_neg (fun e => d4 e.2), if_neg (fun e => d5 e.2)]
        exact takenOf_keep (ht'.2 (chosen_all _ _ _ _ hf)) (by rw [kg d3]; exact ih _ _ hn)
      · rw [if_pos ⟨hf, h2⟩]
        have hc := chosen_iff a c!"vars" k x hf (by decide)
        split
        · rename_i e; exact takenOf_keep (ht'.2 (hc.2 e)) (by rw [kg d3]; exact ih _ _ hn)
        · rename_i e; exact takenOf_drop (fun h => e (hc.1 (ht'.1 h))) (by rw [kg d3]; exact ih _ _ hn)
    rw [if_neg (fun e => h2 e.2)]
    by_cases h3 : x.tag ∈ [c!"g", c!"grp", c!"group"]
    · have d4 := disj1 _ h3 (by decide)
      have d5 := disj _ [c!"o", c!"out", c!"output"] h3 (by decide)
      have hk : nextK k x = k + 1 := if_pos h3
      have ht' : Taken true a k x ↔ ChosenBy a c!"groups" k x := by
        rw [ht]; exact ⟨fun h => h.2.2.1 h3, fun h => ⟨fun e => absurd e h1, fun e => absurd e h2, fun _ => h, fun e => absurd e d4, fun e => absurd e d5⟩⟩
      by_cases hf : filterNames a c!"groups" = []
      · rw [if_neg (by simp [hf]), if_neg (fun e => d4 e.2), if_neg (fun e => d5 e.2)]
        exact takenOf_keep (ht'.2 (chosen_all _ _ _ _ hf)) (ih _ _ (Or.inl hf))
      · rw [if_pos ⟨hf, h3⟩]
        have hnk : n = k := by rcases hn with h | h; exact absurd h hf; exact h
        subst hnk
        have hc := chosen_groups a n x hf
        split
        · rename_i e; exact takenOf_keep (ht'.2 (hc.2 e)) (by rw [hk]; exact ih _ _ (Or.inr rfl))
        · rename_i e; exact takenOf_drop (fun h => e (hc.1 (ht'.1 h))) (by rw [hk]; exact ih _ _ (Or.inr rfl))
    rw [if_neg (fun e => h3 e.2)]
    by_cases h4 : x.tag = c!"lookup"
    · have d5 : x.tag ∉ [c!"o", c!"out", c!"output"] := by rw [h4]; decide
      have ht' : Taken true a k x ↔ ChosenBy a c!"lookups" k x := by
        rw [ht]; exact ⟨fun h => h.2.2.2.1 h4, fun h => ⟨fun e => absurd e h1, fun e => absurd e h2, fun e => absurd e h3, fun _ => h, fun e => absurd e d5⟩⟩
      by_cases hf : filterNames a c!"lookups" = []
      · rw [if_neg (by simp [hf]), if_neg (fun e => d5 e.2)]
        exact takenOf_keep (ht'.2 (chosen_all _ _ _ _ hf)) (by rw [kg h3]; exact ih _ _ hn)
      · rw [if_pos ⟨hf, h4⟩]
        have hc := chosen_iff a c!"lookups" k x hf (by decide)
        split
        · rename_i e; exact takenOf_keep (ht'.2 (hc.2 e)) (by rw [kg h3]; exact ih _ _ hn)
        · rename_i e; exact takenOf_drop (fun h => e (hc.1 (ht'.1 h))) (by rw [kg h3]; exact ih _ _ hn)
    rw [if_neg (fun e => h4 e.2)]
    by_cases h5 : x.tag ∈ [c!"o", c!"out", c!"output"]
    · have ht' : Taken true a k x ↔ ChosenBy a c!"outputs" k x := by
        rw [ht]; exact ⟨fun h => h.2.2.2.2 h5, fun h => ⟨fun e => absurd e h1, fun e => absurd e h2, fun e => absurd e h3, fun e => absurd e h4, fun _ => h⟩⟩
      by_cases hf : filterNames a c!"outputs" = []
      · rw [if_neg (by simp [hf])]
        exact takenOf_keep (ht'.2 (chosen_all _ _ _ _ hf)) (by rw [kg h3]; exact ih _ _ hn)
      · rw [if_pos ⟨hf, h5⟩]
        have hc := chosen_iff a c!"outputs" k x hf (by decide)
        split
        · rename_i e; exact takenOf_keep (ht'.2 (hc.2 e)) (by rw [kg h3]; exact ih _ _ hn)
        · rename_i e; exact takenOf_drop (fun h => e (hc.1 (ht'.1 h))) (by rw [kg h3]; exact ih _ _ hn)
    rw [if_neg (fun e => h5 e.2)]
    exact takenOf_keep (ht.2 ⟨fun e => absurd e h1, fun e => absurd e h2, fun e => absurd e h3, fun e => absurd e h4, fun e => absurd e h5⟩)
      (by rw [kg h3]; exact ih _ _ hn)

theorem takenOf_unique {top : Bool} {a : Dict Str Str} : ∀ {cs ys zs : List Xml} {k : Nat}, TakenOf top a k cs ys → TakenOf top a k cs zs → ys = zs := by
  intro cs
  induction cs with
  | nil => intro ys zs k h1 h2; cases h1; cases h2; rfl
  | cons x cs ih =>
    intro ys zs k h1 h2
    have next : ∀ k', (GroupTag x → k' = k + 1) → (¬ GroupTag x → k' = k) → k' = nextK k x := by
      intro k' g1 g2
      unfold nextK
      split
      · rename_i h; exact g1 h
      · rename_i h; exact g2 h
    cases h1 with
    | keep t1 g1 g1' r1 =>
      cases h2 with
      | keep t2 g2 g2' r2 =>
        rw [next _ g1 g1'] at r1
        rw [next _ g2 g2'] at r2
        rw [ih r1 r2]
      | drop t2 _ _ _ => exact absurd t1 t2
    | drop t1 g1 g1' r1 =>
      cases h2 with
      | keep t2 _ _ _ => exact absurd t2 t1
      | drop t2 g2 g2' r2 =>
        rw [next _ g1 g1'] at r1
        rw [next _ g2 g2'] at r2
        exact ih r1 r2

theorem get?_one {k u k' v : Str} (h : Dict.get? [(k, u)] k' = some v) : k = k' := by
  by_cases e : k = k'
  · exact e
  · simp [Dict.get?, e] at h

theorem top_all (a : Dict Str Str) (h : ∀ attr n, ¬ (attr ∈ choosers.map (·.1) ∧ Lists a attr n)) (cs : List Xml) : ∀ k, TakenOf true a k cs cs := by
  induction cs with
  | nil => intro k; exact .nil
  | cons x cs ih =>
    intro k
    refine takenOf_keep ?_ (ih _)
    unfold Taken
    rw [if_pos rfl]
    intro c hc _ ⟨n, hn⟩
    exact absurd ⟨List.mem_map.2 ⟨c, hc, rfl⟩, hn⟩ (h c.1 n)

theorem filterExtend_taken (top : Bool) (a : Dict Str Str) (p : Str) (hp : Dict.get? a c!"template" = some p) (cs : List Xml) :
    TakenOf top a 0 cs (filterExtend top a cs) := by
  unfold filterExtend
  split
  · rename_i h
    unfold keepsAll at h
    simp only [Bool.and_eq_true, decide_eq_true_eq] at h
    obtain ⟨rfl, hl⟩ := h
    refine top_all a ?_ cs 0
    rintro attr n ⟨hm, _, v, hv, _⟩
    match a, hl with
    | [(k, u)], _ =>
      have e1 := get?_one hp
      have e2 := get?_one hv
      subst e1
      subst e2
      revert hm; decide
  · split
    · rename_i h; subst h; exact top_taken a cs 0 0 (Or.inr rfl)
    · rename_i h
      have : top = false := by simpa using h
      subst this; exact nested_taken a cs 0 0 (Or.inr rfl)

theorem filterExtend_eq {top : Bool} {a : Dict Str Str} {p : Str} (hp : Dict.get? a c!"template" = some p) {cs ks : List Xml}
    (h : TakenOf top a 0 cs ks) : filterExtend top a cs = ks := takenOf_unique (filterExtend_taken top a p hp cs) h

end TTP

namespace TTP
open Py Spec

theorem not_prefix_startsWith (s p : Str) (h : ¬ p <+: s) : startsWith s p = false := by
  cases e : startsWith s p with
  | false => rfl
  | true => exact absurd (by unfold startsWith at e; exact List.isPrefixOf_iff_prefix.1 e) h

theorem prefix_startsWith (s p : Str) (h : p <+: s) : startsWith s p = true := by
  unfold startsWith; exact List.isPrefixOf_iff_prefix.2 h

theorem loadRead_file {w : World} {p c : Str} (h : FileText w p c) : loadRead w p = .ok [c] := by
  unfold loadRead readTemplateFile
  cases h with
  | file h1 h2 h3 => simp [not_prefix_startsWith _ _ h1, h2, h3, ok_bind, pure_ok]
  | dir h1 h2 h3 h4 h5 h6 =>
    rename_i d
    have h5' : w.isFile (pathJoin d (p.take 5000)) = true := h5
    have h6' : w.readFile (pathJoin d (p.take 5000)) = .ok c := h6
    have h4' : d.isEmpty = false := by cases d <;> simp_all
    simp [not_prefix_startsWith _ _ h1, h2, h3, h4', h5', h6', ok_bind, pure_ok]
  | collection h1 => simp [prefix_startsWith _ _ h1, pure_ok]

theorem constructEtree_tree {parse : Str → Option Xml} {s : Str} {x : Xml} (h : TreeOf parse s x) : constructEtree parse s = .ok x := by
  unfold constructEtree
  cases h with
  | whole h1 h2 h3 =>
    have : x.children.isEmpty = false := by cases e : x.children with
      | nil => exact absurd e h3
      | cons _ _ => rfl
    simp only [h1, h2, if_true, pure_ok, ok_bind, this, Bool.false_eq_true, if_false]
  | parts h1 h2 h3 =>
    have : x.children.isEmpty = false := by cases e : x.children with
      | nil => exact absurd e h3
      | cons _ _ => rfl
    cases e : parse s with
    | none => simp only [h2, ok_bind, this, Bool.false_eq_true, if_false, pure_ok]
    | some y => simp only [if_neg (h1 y e), h2, ok_bind, this, Bool.false_eq_true, if_false, pure_ok]
  | text h =>
    simp only [h.alone, h.inTemplate, h.inGroup, ok_bind, pure_ok]
    rfl

theorem extendTree_of {w : World} {X : ExtCtx} {a : Dict Str Str} {e : Xml} (h : Extended w X.parse X.macros a e) : extendTree w X a = .ok e := by
  cases h with
  | mk h1 h2 h3 h4 h5 =>
    unfold extendTree
    rw [h1]
    simp only [Option.getD_some, loadRead_file h2, ok_bind, if_neg h3]
    rcases h4 with ⟨rfl, h⟩ | ⟨m, f, hm, hf, hs⟩
    · have : (Dict.get? a c!"macro").bind X.macros = none := by
        cases hm : Dict.get? a c!"macro" with
        | none => rfl
        | some m => exact h m hm
      rw [this]
      simp only [pure_ok, ok_bind, constructEtree_tree h5]
    · rw [hm]
      simp only [Option.bind_some, hf, hs, ok_bind, constructEtree_tree h5]

theorem extended_template {w : World} {parse macros} {a : Dict Str Str} {e : Xml} (h : Extended w parse macros a e) :
    ∃ p, Dict.get? a c!"template" = some p := by
  cases h with
  | mk h1 _ _ _ _ => exact ⟨_, h1⟩

theorem anonymousText_none {e : Xml} (h : ∀ s, ¬ PlainTree e s) : anonymousText e = none := by
  unfold anonymousText
  split
  · rename_i g hg
    split
    · rename_i hn; exact absurd ⟨g, hg, hn, rfl⟩ (h g.text)
    · rfl
  · rfl

theorem anonymousText_some {e : Xml} {s : Option Str} (h : PlainTree e s) : anonymousText e = some s := by
  obtain ⟨g, h1, h2, h3⟩ := h
  unfold anonymousText
  simp [h1, h2, h3]

theorem settledAll_append {a b : List Xml} (ha : SettledAll a) (hb : SettledAll b) : SettledAll (a ++ b) := by
  rw [settledAll_iff] at *
  intro x hx
  rcases List.mem_append.1 hx with h | h
  · exact ha x h
  · exact hb x h

/-- what comes out has nothing left to handle -/
theorem expands_settled {w : World} {parse macros} {own top : Bool} {t : Option Str} {xs : List Xml} {t' : Option Str} {ys : List Xml}
    (h : Expands w parse macros own top t xs t' ys) : SettledAll ys := by
  induction h with
  | nil => exact .nil
  | @other own top t t' x xs ys h1 h2 _ ih =>
    refine .cons ?_ ih
    cases x with
    | mk tag a s cs tl => exact .mk h1 (fun e => absurd e h2)
  | group _ _ ih1 ih2 => exact .cons (.mk (by decide) (fun _ => ih1)) ih2
  | extend _ _ _ _ _ _ ih1 ih2 => exact settledAll_append ih1 ih2
  | plain _ _ _ _ _ ih => exact ih

/-- elements that are not in an element of their own: the text does not matter, and something is left -/
theorem expands_list {w : World} {parse macros} {own top : Bool} {t : Option Str} {xs : List Xml} {t' : Option Str} {ys : List Xml}
    (h : Expands w parse macros own top t xs t' ys) (ho : own = false) :
    t' = t ∧ (∀ s, Expands w parse macros false top s xs s ys) ∧ (xs ≠ [] → ys ≠ []) := by
  induction h with
  | nil => exact ⟨rfl, fun _ => .nil, fun h => h⟩
  | other h1 h2 _ ih =>
    obtain ⟨i1, i2, i3⟩ := ih ho
    exact ⟨i1, fun s => .other h1 h2 (i2 s), fun _ => by simp⟩
  | group h1 h2 _ ih =>
    obtain ⟨i1, i2, i3⟩ := ih ho
    exact ⟨i1, fun s => .group h1 (i2 s), fun _ => by simp⟩
  | extend h1 h2 h3 h4 h5 _ ih1 ih2 =>
    obtain ⟨i1, i2, i3⟩ := ih2 ho
    obtain ⟨j1, j2, j3⟩ := ih1 rfl
    refine ⟨i1, fun s => .extend h1 h2 h3 h4 h5 (i2 s), fun _ => ?_⟩
    intro e
    exact j3 h4 (List.append_eq_nil_iff.1 e).1
  | plain => cases ho

/-- handling the tags gives what they stand for -/
theorem handle_expands {w : World} {parse macros} {own top : Bool} {t : Option Str} {xs : List Xml} {t' : Option Str} {ys : List Xml}
    (h : Expands w parse macros own top t xs t' ys) : ∃ N, ∀ n, N ≤ n → ∀ (isList : Bool), (own = true → isList = false) →
      ∀ (s s' : Option Str), (own = true → s = t ∧ s' = t') → (own = false → s' = s) → ∀ done,
      handleExtend w ⟨parse, write, macros, 0⟩ n isList top done xs s = .ok (s', done ++ ys) := by
  induction h with
  | @nil own top t =>
    refine ⟨0, fun n _ isList _ s s' h1 h2 done => ?_⟩
    have : s' = s := by
      cases own with
      | true => rw [(h1 rfl).1, (h1 rfl).2]
      | false => exact h2 rfl
    rw [handle_nil, this, List.append_nil]
  | @other own top t t' x xs ys h1 h2 _ ih =>
    obtain ⟨N, ih⟩ := ih
    refine ⟨N, fun n hn isList hl s s' k1 k2 done => ?_⟩
    have hx : SettledAll [x] := by
      refine .cons ?_ .nil
      cases x with
      | mk tag a s cs tl => exact .mk h1 (fun e => absurd e h2)
    have := handle_settledAll w ⟨parse, write, macros, 0⟩ n isList top [x] hx done xs s
    rw [List.singleton_append] at this
    rw [this, ih n hn isList hl s s' k1 k2]
    simp
  | @group own top t t' a s s' cs cs' tl xs ys _ _ ih1 ih2 =>
    obtain ⟨N1, ih1⟩ := ih1
    obtain ⟨N2, ih2⟩ := ih2
    refine ⟨max N1 N2, fun n hn isList hl u u' k1 k2 done => ?_⟩
    have e1 := ih1 n (by omega) false (fun _ => rfl) s s' (fun _ => ⟨rfl, rfl⟩) (by intro e; cases e) []
    have e2 := ih2 n (by omega) isList hl u u' k1 k2 (done ++ [.mk c!"group" a s' cs' tl])
    obtain ⟨ext, he⟩ := handle_loop w ⟨parse, write, macros, 0⟩ n
    rw [he] at e1 e2 ⊢
    rw [loop_cons, if_neg (by decide), if_pos rfl, e1]
    simp only [List.nil_append, Except.bind]
    rw [e2]
    simp
  | @extend own top t t' a s cs tl xs ys e ks ks' h1 h2 h3 h4 h5 _ ih1 ih2 =>
    obtain ⟨N1, ih1⟩ := ih1
    obtain ⟨N2, ih2⟩ := ih2
    refine ⟨max N1 N2 + 1, fun n hn isList hl u u' k1 k2 done => ?_⟩
    obtain ⟨n, rfl⟩ : ∃ m, n = m + 1 := ⟨n - 1, by omega⟩
    have e1 := ih1 n (by omega) (!keepsAll top a) (by intro e; cases e) e.text e.text (by intro e; cases e) (fun _ => rfl) []
    obtain ⟨p, hp⟩ := extended_template h1
    have hk := filterExtend_eq hp h3
    have hne : ks' ≠ [] := (expands_list h5 rfl).2.2 h4
    have hset : SettledAll ks' := expands_settled h5
    obtain ⟨k, kr, rfl⟩ := List.exists_cons_of_ne_nil hne
    have hset2 : SettledAll kr := by cases hset with | cons _ h => exact h
    have e2 := ih2 n (by omega) isList hl u u' k1 k2 (done ++ [k] ++ kr)
    have e3 := handle_settledAll w ⟨parse, write, macros, 0⟩ n isList top kr hset2 (done ++ [k]) xs u
    show extendLoop _ isList top done _ u = _
    rw [loop_cons, if_pos rfl]
    have e4 : extendTree w ⟨parse, write, macros, 0⟩ (Xml.mk c!"extend" a s cs tl).attrib = .ok e := extendTree_of (X := ⟨parse, write, macros, 0⟩) h1
    simp only [e4, ok_bind, anonymousText_none h2]
    have e5 : handleExtend w ⟨parse, write, macros, 0⟩ n (!keepsAll top (Xml.mk c!"extend" a s cs tl).attrib) false []
        (filterExtend top (Xml.mk c!"extend" a s cs tl).attrib e.children) e.text = .ok (e.text, k :: kr) := by
      have : (Xml.mk c!"extend" a s cs tl).attrib = a := rfl
      rw [this, hk]; simpa using e1
    rw [e5, ok_bind]
    simp only [stepOver, List.cons_append]
    rw [e3, e2]
    simp
  | @plain top t t' t0 u0 a s cs tl xs ys e h1 h2 h3 h4 _ ih =>
    obtain ⟨N, ih⟩ := ih
    refine ⟨N + 1, fun n hn isList hl u u' k1 k2 done => ?_⟩
    obtain ⟨n, rfl⟩ : ∃ m, n = m + 1 := ⟨n - 1, by omega⟩
    obtain ⟨rfl, rfl⟩ := k1 rfl
    have := hl rfl
    subst this
    subst h3
    have e2 := ih n (by omega) false (fun _ => rfl) (some (t0 ++ u0)) u' (fun _ => ⟨rfl, rfl⟩) (by intro e; cases e) done
    show extendLoop _ false top done _ (some t0) = _
    rw [loop_cons, if_pos rfl]
    have e4 : extendTree w ⟨parse, write, macros, 0⟩ (Xml.mk c!"extend" a s cs tl).attrib = .ok e := extendTree_of (X := ⟨parse, write, macros, 0⟩) h1
    have e5 : addText false (some t0) (some u0) = .ok (some (t0 ++ u0)) := rfl
    simp only [e4, ok_bind, anonymousText_some h2, e5]
    cases xs with
    | nil =>
      rw [handle_nil] at e2
      simpa [stepOver, pure_ok] using e2
    | cons y xs =>
      simp only [stepOver]
      have := handle_settledAll w ⟨parse, write, macros, 0⟩ n false top [y] (.cons (h4 y xs rfl) .nil) done xs (some (t0 ++ u0))
      rw [List.singleton_append] at this
      rw [← this, e2]

/-- the bound itself is not used by the loop -/
theorem handle_limit (w : World) (X : ExtCtx) (m : Nat) : ∀ n, handleExtend w { X with limit := m } n = handleExtend w X n := by
  intro n
  induction n with
  | zero => rfl
  | succ n ih => simp only [handleExtend, ih]; rfl

theorem loadRead_text (w : World) (s : Str) (h : NotAPath w s) : loadRead w s = .ok [s] := by
  obtain ⟨h1, h2, h3, h4⟩ := h
  have h1' : startsWith s c!"ttp://" = false := by
    cases e : startsWith s c!"ttp://" with
    | false => rfl
    | true => exact absurd (by unfold startsWith at e; exact List.isPrefixOf_iff_prefix.1 e) h1
  unfold loadRead
  rw [h1', h2]
  simp only [Bool.false_eq_true, if_false]
  cases ht : w.templatesDir with
  | none => simp [h3, pure_ok]
  | some d =>
    rcases h4 d ht with e | e
    · subst e; simp [h3, pure_ok]
    · have : w.isFile (pathJoin d (s.take 5000)) = false := e
      simp [h3, this, pure_ok]


/-- the template is given as its text or as the path of a file with the text -/
theorem loadRead_given {w : World} {arg text : Str} (h : Given w arg text) : loadRead w arg = .ok [text] := by
  cases h with
  | text h => exact loadRead_text w _ h
  | path h => exact loadRead_file h

theorem treeOf_children {parse : Str → Option Xml} {s : Str} {x : Xml} (h : TreeOf parse s x) : x.children ≠ [] := by
  cases h with
  | whole _ _ h => exact h
  | parts _ _ h => exact h
  | text _ => intro e; cases e

theorem readTemplate_settled {w : World} {X : ExtCtx} {s : Str} {x : Xml} (hne : s ≠ []) (h : TreeOf X.parse s x) (hs : SettledAll x.children)
    (hw : TreeOf X.parse (X.write x) x) : readTemplate w X s = .ok x := by
  unfold readTemplate
  rw [if_neg hne, constructEtree_tree h, ok_bind, handle_settled_id w X _ false true _ hs [] x.text, ok_bind]
  cases x with
  | mk tag a t cs tl => exact constructEtree_tree hw

end TTP
