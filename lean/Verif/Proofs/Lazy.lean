import Verif.Spec.Lazy
import Verif.Proofs.Save
/-!
# Proofs about functions that are imported at their first call
-/

namespace TTP
open Py Spec

variable {U : Type}

theorem snoc_ind {α : Type} {P : List α → Prop} (nil : P []) (snoc : ∀ l a, P l → P (l ++ [a])) (l : List α) : P l := by
  rw [← l.reverse_reverse]
  induction l.reverse with
  | nil => exact nil
  | cons a t ih => rw [List.reverse_cons]; exact snoc _ _ ih

theorem get?_of_mem_map {m : Dict Str Str} (h : (m.map Prod.fst).Nodup) (f n : Str) : Dict.get? m f = some n ↔ (f, n) ∈ m := by
  constructor
  · exact Dict.mem_of_get? _ _ _
  · intro hm
    induction m with
    | nil => cases hm
    | cons kv m ih =>
      rw [List.map_cons, List.nodup_cons] at h
      rw [Dict.get?_cons]
      rcases List.mem_cons.1 hm with e | hm
      · rw [← e]; simp
      · have hne : kv.1 ≠ f := by
          intro e
          exact h.1 (by rw [e]; exact List.mem_map_of_mem hm (f := Prod.fst))
        simp [hne, ih h.2 hm]

theorem goesBy_iff (p : PyFile) (hp : (p.map.map Prod.fst).Nodup) (f n : Str) : GoesBy p f n ↔ f ∈ p.funs ∧ p.nameOf f = n := by
  unfold GoesBy PyFile.nameOf
  constructor
  · rintro ⟨hf, h | ⟨h, rfl⟩⟩
    · exact ⟨hf, by rw [(get?_of_mem_map hp f n).2 h]; rfl⟩
    · refine ⟨hf, ?_⟩
      cases hg : Dict.get? p.map n with
      | none => rfl
      | some m => exact absurd ((get?_of_mem_map hp _ _).1 hg) (h m)
  · rintro ⟨hf, h⟩
    refine ⟨hf, ?_⟩
    cases hg : Dict.get? p.map f with
    | none =>
      rw [hg] at h
      refine .inr ⟨fun m hm => ?_, h.symm⟩
      rw [(get?_of_mem_map hp _ _).2 hm] at hg
      cases hg
    | some m =>
      rw [hg] at h
      exact .inl ((get?_of_mem_map hp _ _).1 (h ▸ hg))

/-! ## Tables -/

theorem find_put (t : FnTable (LazyEntry U)) (sc n sc' n' : Str) (e : LazyEntry U) (hk : Dict.has t sc = true) :
    (putEntry t sc n e).find sc' n' = if sc' = sc ∧ n' = n then some e else t.find sc' n' := by
  obtain ⟨fs, hfs⟩ := Option.isSome_iff_exists.1 hk
  unfold putEntry FnTable.find
  rw [hfs]
  dsimp only
  rw [Dict.get?_set]
  by_cases h1 : sc' = sc
  · subst h1
    simp only [if_true, Option.bind_some, true_and, hfs, Dict.get?_set]
    by_cases h2 : n' = n
    · simp [h2]
    · simp [h2, Ne.symm h2]
  · simp [h1, Ne.symm h1]

theorem has_put (t : FnTable (LazyEntry U)) (sc n sc' : Str) (e : LazyEntry U) :
    Dict.has (putEntry t sc n e) sc' = Dict.has t sc' := by
  unfold putEntry
  cases hg : Dict.get? t sc with
  | none => rfl
  | some fs =>
    dsimp only
    unfold Dict.has
    rw [Dict.get?_set]
    by_cases h1 : sc = sc'
    · subst h1; simp [hg]
    · simp [h1]

theorem has_loadList (p : PyFile) (sc : Str) (l : List Str) : ∀ (t : FnTable (LazyEntry U)),
    Dict.has (l.foldl (fun t f => putEntry t p.dir (p.nameOf f) (.fn (.builtin p.dir p.mod f))) t) sc = Dict.has t sc := by
  induction l with
  | nil => intro t; rfl
  | cons f l ih => intro t; rw [List.foldl_cons, ih, has_put]

theorem find_loadList_other (p : PyFile) (sc n : Str) (l : List Str) (hn : sc = p.dir → ∀ f ∈ l, p.nameOf f ≠ n) :
    ∀ (t : FnTable (LazyEntry U)), Dict.has t p.dir = true →
      (l.foldl (fun t f => putEntry t p.dir (p.nameOf f) (.fn (.builtin p.dir p.mod f))) t).find sc n = t.find sc n := by
  induction l with
  | nil => intro t _; rfl
  | cons f l ih =>
    intro t ht
    rw [List.foldl_cons, ih (fun e g hg => hn e g (by simp [hg])) _ (by rw [has_put]; exact ht), find_put _ _ _ _ _ _ ht, if_neg]
    rintro ⟨e1, e2⟩
    exact hn e1 f (by simp) e2.symm

theorem find_loadList_own (p : PyFile) (f : Str) (l : List Str) (hf : f ∈ l)
    (hu : ∀ g ∈ l, p.nameOf g = p.nameOf f → g = f) :
    ∀ (t : FnTable (LazyEntry U)), Dict.has t p.dir = true →
      (l.foldl (fun t f => putEntry t p.dir (p.nameOf f) (.fn (.builtin p.dir p.mod f))) t).find p.dir (p.nameOf f) =
        some (.fn (.builtin p.dir p.mod f)) := by
  induction l with
  | nil => cases hf
  | cons g l ih =>
    intro t ht
    rw [List.foldl_cons]
    by_cases hl : f ∈ l
    · exact ih hl (fun g' hg' => hu g' (by simp [hg'])) _ (by rw [has_put]; exact ht)
    · have e : g = f := by rcases List.mem_cons.1 hf with e | e; exact e.symm; exact absurd e hl
      subst e
      rw [find_loadList_other _ _ _ _ _ _ (by rw [has_put]; exact ht), find_put _ _ _ _ _ _ ht, if_pos ⟨rfl, rfl⟩]
      intro _ g' hg' e
      exact hl ((hu g' (by simp [hg']) e) ▸ hg')

/-! ## The table of a new object -/

theorem has_setdefault (t : FnTable (LazyEntry U)) (k sc : Str) : Dict.has (Dict.setdefault t k []) sc = (decide (sc = k) || Dict.has t sc) := by
  unfold Dict.has
  rw [Dict.get?_setdefault]
  by_cases h : sc = k
  · subst h; cases Dict.get? t sc <;> simp
  · simp [h, Ne.symm h]

theorem find_setdefault (t : FnTable (LazyEntry U)) (k sc n : Str) : FnTable.find (Dict.setdefault t k []) sc n = FnTable.find t sc n := by
  unfold FnTable.find
  rw [Dict.get?_setdefault]
  by_cases h : sc = k
  · subst h
    cases Dict.get? t sc with
    | none => simp [Dict.get?]
    | some fs => simp
  · simp [Ne.symm h, h]

theorem cacheFile_other (p : PyFile) (sc n : Str) (l : List Str) (hn : sc = p.dir → ∀ f ∈ l, p.nameOf f ≠ n) :
    ∀ (t : FnTable (LazyEntry U)),
      (l.foldl (fun t f => putEntry (Dict.setdefault t p.dir []) p.dir (p.nameOf f) (.cached p (p.nameOf f))) t).find sc n = t.find sc n := by
  induction l with
  | nil => intro t; rfl
  | cons f l ih =>
    intro t
    rw [List.foldl_cons, ih (fun e g hg => hn e g (by simp [hg])), find_put _ _ _ _ _ _ (by rw [has_setdefault]; simp), if_neg,
      find_setdefault]
    rintro ⟨e1, e2⟩
    exact hn e1 f (by simp) e2.symm

theorem cacheFile_own (p : PyFile) (n : Str) (l : List Str) (hf : ∃ f ∈ l, p.nameOf f = n) :
    ∀ (t : FnTable (LazyEntry U)),
      (l.foldl (fun t f => putEntry (Dict.setdefault t p.dir []) p.dir (p.nameOf f) (.cached p (p.nameOf f))) t).find p.dir n =
        some (.cached p n) := by
  induction l with
  | nil => obtain ⟨_, h, _⟩ := hf; cases h
  | cons g l ih =>
    intro t
    rw [List.foldl_cons]
    by_cases hl : ∃ f ∈ l, p.nameOf f = n
    · exact ih hl _
    · obtain ⟨f, hf, e⟩ := hf
      have e1 : g = f := by
        rcases List.mem_cons.1 hf with e1 | e1
        · exact e1.symm
        · exact absurd ⟨f, e1, e⟩ hl
      subst e1
      rw [cacheFile_other, find_put _ _ _ _ _ _ (by rw [has_setdefault]; simp), if_pos ⟨rfl, e.symm⟩, e]
      intro _ f' hf' e'
      exact hl ⟨f', hf', e'⟩

theorem cacheFile_has (p : PyFile) (sc : Str) (l : List Str) : ∀ (t : FnTable (LazyEntry U)),
    (Dict.has t sc = true → Dict.has (l.foldl (fun t f => putEntry (Dict.setdefault t p.dir []) p.dir (p.nameOf f)
      (.cached p (p.nameOf f))) t) sc = true) := by
  induction l with
  | nil => intro t h; exact h
  | cons g l ih =>
    intro t h
    rw [List.foldl_cons]
    apply ih
    rw [has_put, has_setdefault, h, Bool.or_true]

theorem cacheFile_hasnt (p : PyFile) (sc : Str) (h : sc ≠ p.dir) (l : List Str) : ∀ (t : FnTable (LazyEntry U)),
    Dict.has (l.foldl (fun t f => putEntry (Dict.setdefault t p.dir []) p.dir (p.nameOf f)
      (.cached p (p.nameOf f))) t) sc = Dict.has t sc := by
  induction l with
  | nil => intro t; rfl
  | cons g l ih =>
    intro t
    rw [List.foldl_cons, ih, has_put, has_setdefault]
    simp [h]

section
variable {files : List PyFile} (hc : CleanFiles files)
include hc

theorem table_own (p : PyFile) (hp : p ∈ files) (f n : Str) (hg : GoesBy p f n) :
    (newTable files : FnTable (LazyEntry U)).find p.dir n = some (.cached p n) := by
  unfold newTable
  have key : ∀ (l : List PyFile) (t : FnTable (LazyEntry U)), (∀ q ∈ l, q ∈ files) → p ∈ l →
      (l.foldl cacheFile t).find p.dir n = some (.cached p n) := by
    intro l
    induction l using snoc_ind with
    | nil => intro t _ h; cases h
    | snoc l q ih =>
      intro t hl hpl
      rw [List.foldl_append, List.foldl_cons, List.foldl_nil]
      have hq := hl q (by simp)
      by_cases e : p = q
      · subst e
        exact cacheFile_own p n p.funs ⟨f, ((goesBy_iff p (hc.maps p hp) f n).1 hg)⟩ _
      · unfold cacheFile
        rw [cacheFile_other]
        · exact ih t (fun r hr => hl r (by simp [hr])) (by
            rcases List.mem_append.1 hpl with h | h
            · exact h
            · simp at h; exact absurd h e)
        · intro ed g hgm en
          exact e (hc.names p hp q hq f g n ed hg ((goesBy_iff q (hc.maps q hq) g n).2 ⟨hgm, en⟩)).1
  exact key files _ (fun _ h => h) hp

theorem table_other (sc n : Str) (hn : ∀ p ∈ files, p.dir = sc → ∀ f, ¬ GoesBy p f n) :
    (newTable files : FnTable (LazyEntry U)).find sc n = none := by
  unfold newTable
  have key : ∀ (l : List PyFile) (t : FnTable (LazyEntry U)), (∀ q ∈ l, q ∈ files) →
      (l.foldl cacheFile t).find sc n = t.find sc n := by
    intro l
    induction l with
    | nil => intro t _; rfl
    | cons q l ih =>
      intro t hl
      rw [List.foldl_cons, ih _ (fun r hr => hl r (by simp [hr]))]
      unfold cacheFile
      rw [cacheFile_other]
      intro ed g hgm en
      have hq := hl q (by simp)
      exact hn q hq ed.symm g ((goesBy_iff q (hc.maps q hq) g n).2 ⟨hgm, en⟩)
  rw [key files _ (fun _ h => h)]
  unfold FnTable.find
  by_cases h : sc = "macro".toList
  · simp [h, Dict.get?]
  · have : Dict.get? ([("macro".toList, [])] : FnTable (LazyEntry U)) sc = none := by
      rw [Dict.get?_cons, if_neg (Ne.symm h)]; rfl
    rw [this]; rfl

omit hc in
theorem has_of_find (t : FnTable (LazyEntry U)) (sc n : Str) (e : LazyEntry U) (h : t.find sc n = some e) : Dict.has t sc = true := by
  unfold FnTable.find at h
  unfold Dict.has
  cases hg : Dict.get? t sc with
  | none => rw [hg] at h; cases h
  | some _ => rfl

/-! ## Histories -/

omit hc in
theorem hasAdded_snoc (h : List (FnOp U)) (op : FnOp U) (i : Nat) (sc n : Str) :
    HasAdded (h ++ [op]) i sc n ↔ HasAdded h i sc n ∨ ∃ u, op = .add i sc n u := by
  unfold HasAdded
  constructor
  · rintro ⟨u, hu⟩
    rcases List.mem_append.1 hu with hu | hu
    · exact .inl ⟨u, hu⟩
    · exact .inr ⟨u, by simpa using Eq.symm (by simpa using hu)⟩
  · rintro (⟨u, hu⟩ | ⟨u, rfl⟩)
    · exact ⟨u, by simp [hu]⟩
    · exact ⟨u, by simp⟩

omit hc in
theorem hasRead_snoc (h : List (FnOp U)) (op : FnOp U) (i : Nat) (p : PyFile) :
    HasRead (h ++ [op]) i p ↔ HasRead h i p ∨ ∃ f n, op = .call i p.dir n ∧ GoesBy p f n ∧ ¬ HasAdded h i p.dir n := by
  unfold HasRead
  constructor
  · rintro ⟨h1, f, n, h2, e, hg, ha⟩
    rcases List.eq_nil_or_concat h2 with rfl | ⟨h2', a, rfl⟩
    · obtain ⟨e1, e2⟩ := List.append_inj' e rfl
      simp only [List.cons.injEq, and_true] at e2
      subst e1
      exact .inr ⟨f, n, e2, hg, ha⟩
    · have e' : h ++ [op] = (h1 ++ FnOp.call i p.dir n :: h2') ++ [a] := by rw [e]; simp
      obtain ⟨e1, _⟩ := List.append_inj' e' rfl
      exact .inl ⟨h1, f, n, h2', e1, hg, ha⟩
  · rintro (⟨h1, f, n, h2, rfl, hg, ha⟩ | ⟨f, n, rfl, hg, ha⟩)
    · exact ⟨h1, f, n, h2 ++ [op], by simp, hg, ha⟩
    · exact ⟨h, f, n, [], by simp, hg, ha⟩

omit hc in
theorem lastAdded_snoc (h : List (FnOp U)) (op : FnOp U) (i : Nat) (sc n : Str) (h1 : List (FnOp U)) (u : U)
    (hl : LastAdded h i sc n h1 u) (ho : ∀ u, op ≠ .add i sc n u) : LastAdded (h ++ [op]) i sc n h1 u := by
  obtain ⟨h2, rfl, h3⟩ := hl
  refine ⟨h2 ++ [op], by simp, ?_⟩
  rw [hasAdded_snoc]
  rintro (h | ⟨u, e⟩)
  · exact h3 h
  · exact ho u e

omit hc in
theorem lastAdded_now (h : List (FnOp U)) (i : Nat) (sc n : Str) (u : U) : LastAdded (h ++ [.add i sc n u]) i sc n h u :=
  ⟨[], by simp, fun ⟨_, h⟩ => by cases h⟩

omit hc in
theorem lastAdded_det (h : List (FnOp U)) (i : Nat) (sc n : Str) : ∀ (h1 h1' : List (FnOp U)) (u u' : U),
    LastAdded h i sc n h1 u → LastAdded h i sc n h1' u' → h1 = h1' ∧ u = u' := by
  induction h with
  | nil => rintro h1 _ _ _ ⟨h2, e, _⟩; simp at e
  | cons a h ih =>
    rintro h1 h1' u u' ⟨h2, e, hn⟩ ⟨h2', e', hn'⟩
    cases h1 with
    | nil =>
      cases h1' with
      | nil =>
        simp only [List.nil_append, List.cons.injEq] at e e'
        have := e.1.symm.trans e'.1
        injection this with _ _ _ hu
        exact ⟨rfl, hu⟩
      | cons b h1' =>
        simp only [List.nil_append, List.cons_append, List.cons.injEq] at e e'
        exact absurd ⟨u', by rw [← e.2, e'.2]; simp⟩ hn
    | cons c h1 =>
      cases h1' with
      | nil =>
        simp only [List.nil_append, List.cons_append, List.cons.injEq] at e e'
        exact absurd ⟨u, by rw [← e'.2, e.2]; simp⟩ hn'
      | cons b h1' =>
        simp only [List.cons_append, List.cons.injEq] at e e'
        obtain ⟨e1, e2⟩ := ih h1 h1' u u' ⟨h2, e.2, hn⟩ ⟨h2', e'.2, hn'⟩
        exact ⟨by rw [e1, ← e.1, ← e'.1], e2⟩

omit hc in
theorem hasAdded_last (h : List (FnOp U)) (i : Nat) (sc n : Str) (ha : HasAdded h i sc n) : ∃ h1 u, LastAdded h i sc n h1 u := by
  induction h using snoc_ind with
  | nil => obtain ⟨_, h⟩ := ha; cases h
  | snoc h op ih =>
    by_cases hop : ∃ u, op = .add i sc n u
    · obtain ⟨u, rfl⟩ := hop
      exact ⟨h, u, lastAdded_now h i sc n u⟩
    · rcases (hasAdded_snoc h op i sc n).1 ha with ha | ha
      · obtain ⟨h1, u, hl⟩ := ih ha
        exact ⟨h1, u, lastAdded_snoc h op i sc n h1 u hl (fun u e => hop ⟨u, e⟩)⟩
      · exact absurd ha hop

omit hc in
theorem lastAdded_has (h : List (FnOp U)) (i : Nat) (sc n : Str) (h1 : List (FnOp U)) (u : U) (hl : LastAdded h i sc n h1 u) :
    HasAdded h i sc n := by
  obtain ⟨h2, rfl, _⟩ := hl
  exact ⟨u, by simp⟩

/-- what is in the table of an object under a name of the file -/
inductive EntryIs (h : List (FnOp U)) (i : Nat) (p : PyFile) (f n : Str) : LazyEntry U → Prop
  | fresh : ¬ HasAdded h i p.dir n → ¬ HasRead h i p → EntryIs h i p f n (.cached p n)
  | loaded : ¬ HasAdded h i p.dir n → HasRead h i p → EntryIs h i p f n (.fn (.builtin p.dir p.mod f))
  | user (h1 : List (FnOp U)) (u : U) : LastAdded h i p.dir n h1 u → (HasRead h i p → HasRead h1 i p) → EntryIs h i p f n (.fn (.user u))
  | lost (h1 : List (FnOp U)) (u : U) : LastAdded h i p.dir n h1 u → ¬ HasRead h1 i p → HasRead h i p →
      EntryIs h i p f n (.fn (.builtin p.dir p.mod f))

/-- the invariant of histories -/
structure LazyInv (files : List PyFile) (h : List (FnOp U)) (s : Process U) : Prop where
  known : ∀ i sc, Dict.has (s.objs i) sc = Dict.has (newTable files : FnTable (LazyEntry U)) sc
  entry : ∀ i p, p ∈ files → ∀ f n, GoesBy p f n → ∃ e, (s.objs i).find p.dir n = some e ∧ EntryIs h i p f n e
  other : ∀ i sc n, (∀ p ∈ files, p.dir = sc → ∀ f, ¬ GoesBy p f n) → Dict.has (newTable files : FnTable (LazyEntry U)) sc = true →
    (¬ HasAdded h i sc n ∧ (s.objs i).find sc n = none) ∨
      ∃ h1 u, LastAdded h i sc n h1 u ∧ (s.objs i).find sc n = some (.fn (.user u))
  cached : ∀ i sc n p m, (s.objs i).find sc n = some (.cached p m) → p ∈ files ∧ sc = p.dir ∧ m = n ∧ ∃ f, GoesBy p f n
  owner : ∀ p ∈ files, (∀ j, Dict.get? s.owner (p.dir, p.mod) = some j → LastReader h j p) ∧
    ((∃ k, HasRead h k p) → ∃ j, Dict.get? s.owner (p.dir, p.mod) = some j)

theorem cached_start (sc n : Str) (p : PyFile) (m : Str) (he : (newTable files : FnTable (LazyEntry U)).find sc n = some (.cached p m)) :
    p ∈ files ∧ sc = p.dir ∧ m = n ∧ ∃ f, GoesBy p f n := by
  by_cases hx : ∃ q ∈ files, q.dir = sc ∧ ∃ f, GoesBy q f n
  · obtain ⟨q, hq, rfl, f, hg⟩ := hx
    rw [table_own hc q hq f n hg] at he
    simp only [Option.some.injEq, LazyEntry.cached.injEq] at he
    obtain ⟨rfl, rfl⟩ := he
    exact ⟨hq, rfl, rfl, f, hg⟩
  · rw [table_other hc sc n (fun p hp e f hg => hx ⟨p, hp, e, f, hg⟩)] at he
    cases he

theorem lazyInv_start : LazyInv files ([] : List (FnOp U)) (Process.start files) where
  known _ _ := rfl
  entry i p hp f n hg := ⟨_, table_own hc p hp f n hg, .fresh (fun ⟨_, h⟩ => by cases h) (fun ⟨_, _, _, _, h, _⟩ => by simp at h)⟩
  other i sc n hn _ := .inl ⟨fun ⟨_, h⟩ => by (cases h), table_other hc sc n hn⟩
  cached i sc n p m he := cached_start hc sc n p m he
  owner p _ := ⟨fun j h => by (simp [Process.start] at h), fun ⟨_, _, _, _, _, h, _⟩ => by simp at h⟩

omit hc in
theorem hasRead_mono (h h' : List (FnOp U)) (i : Nat) (p : PyFile) (hr : HasRead h i p) : HasRead (h ++ h') i p := by
  obtain ⟨h1, f, n, h2, rfl, hg, ha⟩ := hr
  exact ⟨h1, f, n, h2 ++ h', by simp, hg, ha⟩

omit hc in
theorem entryIs_keep (h : List (FnOp U)) (op : FnOp U) (i : Nat) (p : PyFile) (f n : Str) (e : LazyEntry U)
    (ho : ∀ u, op ≠ .add i p.dir n u) (hr : HasRead (h ++ [op]) i p → HasRead h i p) (he : EntryIs h i p f n e) :
    EntryIs (h ++ [op]) i p f n e := by
  have hA : HasAdded (h ++ [op]) i p.dir n → HasAdded h i p.dir n := by
    intro ha
    rcases (hasAdded_snoc h op i p.dir n).1 ha with ha | ⟨u, e⟩
    · exact ha
    · exact absurd e (ho u)
  cases he with
  | fresh h1 h2 => exact .fresh (fun h => h1 (hA h)) (fun h => h2 (hr h))
  | loaded h1 h2 => exact .loaded (fun h => h1 (hA h)) (hasRead_mono _ _ _ _ h2)
  | user h1 u h2 h3 => exact .user h1 u (lastAdded_snoc _ _ _ _ _ _ _ h2 ho) (fun h => h3 (hr h))
  | lost h1 u h2 h3 h4 => exact .lost h1 u (lastAdded_snoc _ _ _ _ _ _ _ h2 ho) h3 (hasRead_mono _ _ _ _ h4)

omit hc in
theorem lastReader_keep (h : List (FnOp U)) (op : FnOp U) (j : Nat) (p : PyFile) (hr : ∀ k, HasRead (h ++ [op]) k p → HasRead h k p)
    (hl : LastReader h j p) : LastReader (h ++ [op]) j p := by
  obtain ⟨h1, n, h2, rfl, a, b, c⟩ := hl
  exact ⟨h1, n, h2 ++ [op], by simp, a, b, fun k hk => c k (hr k hk)⟩

omit hc in
/-- a step that changes no table and imports nothing -/
theorem lazyInv_keep (h : List (FnOp U)) (op : FnOp U) (s : Process U) (hi : LazyInv files h s)
    (ho : ∀ i sc n u, op = .add i sc n u → Dict.has (newTable files : FnTable (LazyEntry U)) sc = false)
    (hr : ∀ k p, p ∈ files → HasRead (h ++ [op]) k p → HasRead h k p) : LazyInv files (h ++ [op]) s where
  known := hi.known
  entry i p hp f n hg := by
    obtain ⟨e, h1, h2⟩ := hi.entry i p hp f n hg
    refine ⟨e, h1, entryIs_keep h op i p f n e ?_ (hr i p hp) h2⟩
    intro u e1
    have := ho _ _ _ _ e1
    rw [← hi.known i, has_of_find _ _ _ _ h1] at this
    cases this
  other i sc n hn hk := by
    have hno : ∀ u, op ≠ .add i sc n u := by
      intro u e
      rw [ho _ _ _ _ e] at hk
      cases hk
    rcases hi.other i sc n hn hk with ⟨h1, h2⟩ | ⟨h1, u, h2, h3⟩
    · refine .inl ⟨?_, h2⟩
      intro ha
      rcases (hasAdded_snoc h op i sc n).1 ha with ha | ⟨u, e⟩
      · exact h1 ha
      · exact hno u e
    · exact .inr ⟨h1, u, lastAdded_snoc _ _ _ _ _ _ _ h2 hno, h3⟩
  cached := hi.cached
  owner p hp := ⟨fun j hj => lastReader_keep h op j p (fun k => hr k p hp) ((hi.owner p hp).1 j hj),
    fun ⟨k, hk⟩ => (hi.owner p hp).2 ⟨k, hr k p hp hk⟩⟩

omit hc in
theorem read_add (h : List (FnOp U)) (i : Nat) (sc n : Str) (u : U) (k : Nat) (p : PyFile)
    (hr : HasRead (h ++ [.add i sc n u]) k p) : HasRead h k p := by
  rcases (hasRead_snoc _ _ _ _).1 hr with hr | ⟨_, _, e, _⟩
  · exact hr
  · cases e

omit hc in
theorem step_add (h : List (FnOp U)) (i : Nat) (sc n : Str) (u : U) (s : Process U) (hi : LazyInv files h s) :
    LazyInv files (h ++ [.add i sc n u]) (fnStep s (.add i sc n u)) := by
  unfold fnStep addName
  dsimp only
  cases hk : Dict.has (s.objs i) sc with
  | false =>
    simp only [Bool.false_eq_true, if_false]
    refine lazyInv_keep h _ s hi ?_ (fun k p _ hr => read_add h i sc n u k p hr)
    intro i' sc' n' u' e
    injection e with e1 e2 e3 e4
    subst e1 e2
    rw [← hi.known i, hk]
  | true =>
    simp only [if_true, pure_ok]
    constructor
    · intro j sc'
      dsimp only [setObj]
      split
      · rw [has_put]; exact hi.known i sc'
      · exact hi.known j sc'
    · intro j p hp f m hg
      obtain ⟨e, h1, h2⟩ := hi.entry j p hp f m hg
      by_cases hx : j = i ∧ p.dir = sc ∧ m = n
      · obtain ⟨rfl, rfl, rfl⟩ := hx
        refine ⟨.fn (.user u), ?_, .user h u (lastAdded_now h j p.dir m u) (fun hr => read_add _ _ _ _ _ _ _ hr)⟩
        simp only [setObj, if_true]
        rw [find_put _ _ _ _ _ _ hk, if_pos ⟨rfl, rfl⟩]
      · refine ⟨e, ?_, entryIs_keep h _ j p f m e ?_ (fun hr => read_add _ _ _ _ _ _ _ hr) h2⟩
        · dsimp only [setObj]
          split
          · rename_i e1
            subst e1
            rw [find_put _ _ _ _ _ _ hk, if_neg (fun h => hx ⟨rfl, h.1, h.2⟩)]
            exact h1
          · exact h1
        · intro u' e1
          injection e1 with e1 e2 e3
          exact hx ⟨e1.symm, e2.symm, e3.symm⟩
    · intro j sc' m hn hkn
      by_cases hx : j = i ∧ sc' = sc ∧ m = n
      · obtain ⟨rfl, rfl, rfl⟩ := hx
        refine .inr ⟨h, u, lastAdded_now h j sc' m u, ?_⟩
        simp only [setObj, if_true]
        rw [find_put _ _ _ _ _ _ hk, if_pos ⟨rfl, rfl⟩]
      · have hno : ∀ u', FnOp.add i sc n u ≠ .add j sc' m u' := by
          intro u' e1
          injection e1 with e1 e2 e3
          exact hx ⟨e1.symm, e2.symm, e3.symm⟩
        have hf : (setObj s.objs i (putEntry (s.objs i) sc n (.fn (.user u))) j).find sc' m = (s.objs j).find sc' m := by
          dsimp only [setObj]
          split
          · rename_i e1
            subst e1
            rw [find_put _ _ _ _ _ _ hk, if_neg (fun h => hx ⟨rfl, h.1, h.2⟩)]
          · rfl
        rw [hf]
        rcases hi.other j sc' m hn hkn with ⟨h1, h2⟩ | ⟨h1, u', h2, h3⟩
        · refine .inl ⟨?_, h2⟩
          intro ha
          rcases (hasAdded_snoc h _ j sc' m).1 ha with ha | ⟨u', e⟩
          · exact h1 ha
          · exact hno u' e
        · exact .inr ⟨h1, u', lastAdded_snoc _ _ _ _ _ _ _ h2 hno, h3⟩
    · intro j sc' m p m' he
      dsimp only [setObj] at he
      split at he
      · rename_i e1
        subst e1
        rw [find_put _ _ _ _ _ _ hk] at he
        split at he
        · simp at he
        · exact hi.cached _ _ _ _ _ he
      · exact hi.cached _ _ _ _ _ he
    · intro p hp
      exact ⟨fun j hj => lastReader_keep h _ j p (fun k hr => read_add _ _ _ _ _ _ _ hr) ((hi.owner p hp).1 j hj),
        fun ⟨k, hk⟩ => (hi.owner p hp).2 ⟨k, read_add _ _ _ _ _ _ _ hk⟩⟩

theorem load_own (t : FnTable (LazyEntry U)) (p : PyFile) (hp : p ∈ files) (f n : Str) (hg : GoesBy p f n) (hk : Dict.has t p.dir = true) :
    (loadInto t p).find p.dir n = some (.fn (.builtin p.dir p.mod f)) := by
  obtain ⟨h1, rfl⟩ := (goesBy_iff p (hc.maps p hp) f n).1 hg
  apply find_loadList_own p f p.funs h1 _ t hk
  intro g hg' e
  exact (hc.names p hp p hp g f (p.nameOf f) rfl ((goesBy_iff p (hc.maps p hp) g _).2 ⟨hg', e⟩) hg).2

theorem load_other (t : FnTable (LazyEntry U)) (p : PyFile) (hp : p ∈ files) (sc n : Str) (hn : sc = p.dir → ∀ f, ¬ GoesBy p f n)
    (hk : Dict.has t p.dir = true) : (loadInto t p).find sc n = t.find sc n := by
  apply find_loadList_other p sc n p.funs _ t hk
  intro e f hf e2
  exact hn e f ((goesBy_iff p (hc.maps p hp) f n).2 ⟨hf, e2⟩)

/-- a first call: the entry is a `CachedModule` -/
theorem call_cached (h : List (FnOp U)) (i : Nat) (s : Process U) (hi : LazyInv files h s) (p : PyFile) (hp : p ∈ files) (f n : Str)
    (hg : GoesBy p f n) (he : (s.objs i).find p.dir n = some (.cached p n)) :
    callName s i p.dir n = .ok (⟨.builtin p.dir p.mod f, some i⟩, loadFile s i p) := by
  unfold callName
  rw [he]
  dsimp only
  have hk := has_of_find _ _ _ _ he
  have : ((loadFile s i p).objs i).find p.dir n = some (.fn (.builtin p.dir p.mod f)) := by
    simp only [loadFile, setObj, if_true]
    exact load_own hc _ p hp f n hg hk
  rw [this]
  simp only [ranEntry, seesOf, loadFile, Dict.get?_set_self, pure_ok]

theorem step_call (h : List (FnOp U)) (i : Nat) (sc n : Str) (s : Process U) (hi : LazyInv files h s) :
    LazyInv files (h ++ [.call i sc n]) (fnStep s (.call i sc n)) := by
  cases he : (s.objs i).find sc n with
  | none =>
    have : callName s i sc n = .error .keyError := by unfold callName; rw [he]; rfl
    unfold fnStep
    dsimp only
    rw [this]
    dsimp only
    refine lazyInv_keep h _ s hi (fun _ _ _ _ e => by cases e) ?_
    intro k p hp hr
    rcases (hasRead_snoc _ _ _ _).1 hr with hr | ⟨f, m, e, hg, _⟩
    · exact hr
    · injection e with e1 e2 e3
      subst e1 e2 e3
      obtain ⟨e, h1, _⟩ := hi.entry i p hp f n hg
      rw [he] at h1
      cases h1
  | some e =>
    cases e with
    | fn g =>
      have : callName s i sc n = .ok (⟨g, seesOf s.owner g⟩, s) := by unfold callName; rw [he]; rfl
      unfold fnStep
      dsimp only
      rw [this]
      dsimp only
      refine lazyInv_keep h _ s hi (fun _ _ _ _ e => by cases e) ?_
      intro k p hp hr
      rcases (hasRead_snoc _ _ _ _).1 hr with hr | ⟨f, m, e, hg, hna⟩
      · exact hr
      · injection e with e1 e2 e3
        subst e1 e2 e3
        obtain ⟨e, h1, h2⟩ := hi.entry i p hp f n hg
        rw [he] at h1
        injection h1 with h1
        subst h1
        cases h2 with
        | loaded _ h => exact h
        | user h1 u h2 _ => exact absurd (lastAdded_has _ _ _ _ _ _ h2) hna
        | lost h1 u h2 _ _ => exact absurd (lastAdded_has _ _ _ _ _ _ h2) hna
    | cached p m =>
      obtain ⟨hp, rfl, rfl, f, hg⟩ := hi.cached _ _ _ _ _ he
      have hk := has_of_find _ _ _ _ he
      obtain ⟨e, h1, h2⟩ := hi.entry i p hp f m hg
      rw [he] at h1
      injection h1 with h1
      subst h1
      have hfresh : ¬ HasAdded h i p.dir m ∧ ¬ HasRead h i p := by
        cases h2 with
        | fresh a b => exact ⟨a, b⟩
      obtain ⟨hna, hnr⟩ := hfresh
      have hnew : HasRead (h ++ [.call i p.dir m]) i p := (hasRead_snoc _ _ _ _).2 (.inr ⟨f, m, rfl, hg, hna⟩)
      have hold : ∀ k q, q ∈ files → ¬ (k = i ∧ q = p) → HasRead (h ++ [.call i p.dir m]) k q → HasRead h k q := by
        intro k q hq hne hr
        rcases (hasRead_snoc _ _ _ _).1 hr with hr | ⟨g, m', e, hg', _⟩
        · exact hr
        · injection e with e1 e2 e3
          subst e1 e3
          exact absurd ⟨rfl, (hc.names p hp q hq f g m e2 hg hg').1.symm⟩ hne
      unfold fnStep
      dsimp only
      rw [call_cached hc h i s hi p hp f m hg he]
      dsimp only
      constructor
      · intro j sc'
        dsimp only [loadFile, setObj]
        split
        · rw [← hi.known i sc']; exact has_loadList p sc' p.funs _
        · exact hi.known j sc'
      · intro j q hq g m' hg'
        obtain ⟨e, h1, h2⟩ := hi.entry j q hq g m' hg'
        by_cases hx : j = i ∧ q = p
        · obtain ⟨rfl, rfl⟩ := hx
          refine ⟨.fn (.builtin q.dir q.mod g), ?_, ?_⟩
          · simp only [loadFile, setObj, if_true]
            exact load_own hc _ q hq g m' hg' hk
          · by_cases ha : HasAdded h j q.dir m'
            · obtain ⟨h1', u, hl⟩ := hasAdded_last h j q.dir m' ha
              refine .lost h1' u (lastAdded_snoc _ _ _ _ _ _ _ hl (fun u e => by cases e)) ?_ hnew
              intro hr
              obtain ⟨h2', rfl, _⟩ := hl
              exact hnr (hasRead_mono _ _ _ _ hr)
            · refine .loaded ?_ hnew
              intro ha'
              rcases (hasAdded_snoc _ _ _ _ _).1 ha' with ha' | ⟨u, e⟩
              · exact ha ha'
              · cases e
        · refine ⟨e, ?_, entryIs_keep h _ j q g m' e (fun u e => by cases e) (hold j q hq hx) h2⟩
          dsimp only [loadFile, setObj]
          split
          · rename_i e1
            subst e1
            rw [load_other hc _ p hp _ _ _ hk]
            · exact h1
            · intro e1 f' hf'
              exact hx ⟨rfl, (hc.names q hq p hp g f' m' e1 hg' hf').1⟩
          · exact h1
      · intro j sc' m' hn hkn
        have hf : ((loadFile s i p).objs j).find sc' m' = (s.objs j).find sc' m' := by
          dsimp only [loadFile, setObj]
          split
          · rename_i e1
            subst e1
            exact load_other hc _ p hp _ _ (fun e f hg => hn p hp e.symm f hg) hk
          · rfl
        rw [hf]
        rcases hi.other j sc' m' hn hkn with ⟨h1, h2⟩ | ⟨h1, u', h2, h3⟩
        · refine .inl ⟨?_, h2⟩
          intro ha
          rcases (hasAdded_snoc _ _ _ _ _).1 ha with ha | ⟨u', e⟩
          · exact h1 ha
          · cases e
        · exact .inr ⟨h1, u', lastAdded_snoc _ _ _ _ _ _ _ h2 (fun _ e => by cases e), h3⟩
      · intro j sc' m' q m'' hq
        dsimp only [loadFile, setObj] at hq
        split at hq
        · rename_i e1
          subst e1
          by_cases hx : sc' = p.dir ∧ ∃ f', GoesBy p f' m'
          · obtain ⟨rfl, f', hf'⟩ := hx
            rw [load_own hc _ p hp f' m' hf' hk] at hq
            simp at hq
          · rw [load_other hc _ p hp _ _ (fun e f' hf' => hx ⟨e, f', hf'⟩) hk] at hq
            exact hi.cached _ _ _ _ _ hq
        · exact hi.cached _ _ _ _ _ hq
      · intro q hq
        by_cases hx : q = p
        · subst hx
          refine ⟨?_, fun _ => ⟨i, by simp only [loadFile, Dict.get?_set_self]⟩⟩
          intro j hj
          simp only [loadFile, Dict.get?_set_self, Option.some.injEq] at hj
          subst hj
          exact ⟨h, m, [], by simp, hnr, hnew, fun k hk => hk⟩
        · have hne : (p.dir, p.mod) ≠ (q.dir, q.mod) := by
            intro e
            injection e with e1 e2
            exact hx (hc.paths q hq p hp e1.symm e2.symm)
          simp only [loadFile]
          rw [Dict.get?_set_ne _ _ hne]
          exact ⟨fun j hj => lastReader_keep h _ j q (fun k hr => hold k q hq (fun h => hx h.2) hr) ((hi.owner q hq).1 j hj),
            fun ⟨k, hr⟩ => (hi.owner q hq).2 ⟨k, hold k q hq (fun h => hx h.2) hr⟩⟩

theorem lazyInv_after (h : List (FnOp U)) : LazyInv files h (fnAfter files h) := by
  induction h using snoc_ind with
  | nil => exact lazyInv_start hc
  | snoc h op ih =>
    unfold fnAfter at ih ⊢
    rw [List.foldl_append, List.foldl_cons, List.foldl_nil]
    cases op with
    | add i sc n u => exact step_add h i sc n u _ ih
    | call i sc n => exact step_call hc h i sc n _ ih

end

end TTP
