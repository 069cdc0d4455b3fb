import Verif.Proofs.Lazy
/-!
# C153, C154: the functions of `ttp` objects that live in one process
-/

namespace Props
open Py TTP Spec

variable {U : Type}

theorem clean_of (files : List PyFile) (h1 : ∀ p ∈ files, (p.map.map Prod.fst).Nodup)
    (h2 : (files.flatMap (fun p => p.funs.map (fun f => (p.dir, p.nameOf f, p.mod, f)))).Pairwise
      (fun a b => (a.1, a.2.1) ≠ (b.1, b.2.1)))
    (h3 : files.Pairwise (fun p q => (p.dir, p.mod) ≠ (q.dir, q.mod))) : CleanFiles files := by
  have key : ∀ {α β : Type} (g : α → β) (l : List α), l.Pairwise (fun a b => g a ≠ g b) → ∀ a ∈ l, ∀ b ∈ l, g a = g b → a = b := by
    intro α β g l hl
    induction l with
    | nil => intro a ha; cases ha
    | cons x l ih =>
      rw [List.pairwise_cons] at hl
      intro a ha b hb e
      rcases List.mem_cons.1 ha with rfl | ha'
      · rcases List.mem_cons.1 hb with rfl | hb
        · rfl
        · exact absurd e (hl.1 b hb)
      · rcases List.mem_cons.1 hb with rfl | hb
        · exact absurd e.symm (hl.1 a ha')
        · exact ih hl.2 a ha' b hb e
  have hp := key (fun p : PyFile => (p.dir, p.mod)) files h3
  refine ⟨h1, ?_, fun p hp' q hq e1 e2 => hp p hp' q hq (by simp [e1, e2])⟩
  intro p hpm q hq f g n ed hf hg
  obtain ⟨a1, a2⟩ := (goesBy_iff p (h1 p hpm) f n).1 hf
  obtain ⟨b1, b2⟩ := (goesBy_iff q (h1 q hq) g n).1 hg
  have := key (fun a : Str × Str × Str × Str => (a.1, a.2.1)) _ h2 (p.dir, p.nameOf f, p.mod, f)
    (List.mem_flatMap.2 ⟨p, hpm, List.mem_map.2 ⟨f, a1, rfl⟩⟩) (q.dir, q.nameOf g, q.mod, g)
    (List.mem_flatMap.2 ⟨q, hq, List.mem_map.2 ⟨g, b1, rfl⟩⟩) (by simp [ed, a2, b2])
  simp only [Prod.mk.injEq] at this
  exact ⟨hp p hpm q hq (by simp [this.1, this.2.2.1]), this.2.2.2⟩

set_option synthInstance.maxSize 4000 in
set_option maxRecDepth 20000 in
/-- the files of this installation do not get in each other's way -/
theorem ttpFiles_clean : CleanFiles ttpFiles := by
  refine clean_of ttpFiles (by decide +kernel) (by decide +kernel) (by decide +kernel)

/-! ## C153: which function a name stands for -/

section
variable (files : List PyFile) (hc : CleanFiles files)
include hc

theorem call_of (h : List (FnOp U)) (i : Nat) (p : PyFile) (hp : p ∈ files) (f n : Str) (hg : GoesBy p f n) :
    ∃ r, callAfter files h i p.dir n = .ok r ∧
      ((r.what = .builtin p.dir p.mod f ∧ (¬ HasAdded h i p.dir n ∨
          ∃ h1 u, LastAdded h i p.dir n h1 u ∧ ¬ HasRead h1 i p ∧ HasRead h i p)) ∨
        ∃ h1 u, r = ⟨.user u, none⟩ ∧ LastAdded h i p.dir n h1 u ∧ (HasRead h i p → HasRead h1 i p)) := by
  have hi := lazyInv_after hc h
  obtain ⟨e, h1, h2⟩ := hi.entry i p hp f n hg
  unfold callAfter
  cases h2 with
  | fresh a b =>
    rw [call_cached hc h i _ hi p hp f n hg h1]
    exact ⟨_, rfl, .inl ⟨rfl, .inl a⟩⟩
  | loaded a b =>
    unfold callName
    rw [h1]
    exact ⟨_, rfl, .inl ⟨rfl, .inl a⟩⟩
  | user h1' u a b =>
    unfold callName
    rw [h1]
    exact ⟨_, rfl, .inr ⟨h1', u, rfl, a, b⟩⟩
  | lost h1' u a b c =>
    unfold callName
    rw [h1]
    exact ⟨_, rfl, .inl ⟨rfl, .inr ⟨h1', u, a, b, c⟩⟩⟩

/-- C153, in part: a name under which the user has added nothing to the object runs the function of TTP that goes by the name,
whatever was called or added before, in this object or in others. Missing: names of TTP under which the user added a function, see
`C153_own_name` and `C153_overwritten`. -/
theorem C153_installed_partial (h : List (FnOp U)) (i : Nat) (p : PyFile) (hp : p ∈ files) (f n : Str) (hg : GoesBy p f n)
    (hn : ¬ HasAdded h i p.dir n) : ∃ j, callAfter files h i p.dir n = .ok ⟨.builtin p.dir p.mod f, j⟩ := by
  obtain ⟨r, h1, ⟨h2, _⟩ | ⟨h1', u, rfl, h2, _⟩⟩ := call_of files hc h i p hp f n hg
  · obtain ⟨w, j⟩ := r
    exact ⟨j, by rw [h1]; simp only at h2; rw [h2]⟩
  · exact absurd (lastAdded_has _ _ _ _ _ _ h2) hn

/-- C153, in part: a name that no function of TTP has runs the function that the user added last under it, and raises `KeyError`
if there is none. -/
theorem C153_new_name_partial (h : List (FnOp U)) (i : Nat) (sc n : Str) (hn : ∀ p ∈ files, p.dir = sc → ∀ f, ¬ GoesBy p f n)
    (hs : sc = "macro".toList ∨ ∃ p ∈ files, p.dir = sc ∧ p.funs ≠ []) :
    (¬ HasAdded h i sc n → callAfter files h i sc n = .error .keyError) ∧
    (∀ h1 u, LastAdded h i sc n h1 u → callAfter files h i sc n = .ok ⟨.user u, none⟩) := by
  have hi := lazyInv_after hc h
  have hk : Dict.has (newTable files : FnTable (LazyEntry U)) sc = true := by
    rcases hs with rfl | ⟨p, hp, rfl, hf⟩
    · unfold newTable
      have : ∀ (l : List PyFile) (t : FnTable (LazyEntry U)), Dict.has t "macro".toList = true →
          Dict.has (l.foldl cacheFile t) "macro".toList = true := by
        intro l
        induction l with
        | nil => intro t h; exact h
        | cons q l ih => intro t h; exact ih _ (cacheFile_has q _ q.funs t h)
      exact this files _ rfl
    · obtain ⟨f, hf⟩ := List.exists_mem_of_ne_nil _ hf
      exact has_of_find _ _ _ _ (table_own hc p hp f (p.nameOf f) ((goesBy_iff p (hc.maps p hp) f _).2 ⟨hf, rfl⟩))
  rcases hi.other i sc n hn hk with ⟨h1, h2⟩ | ⟨h1, u, h2, h3⟩
  · refine ⟨fun _ => by unfold callAfter callName; rw [h2]; rfl, fun h1' u hl => absurd (lastAdded_has _ _ _ _ _ _ hl) h1⟩
  · refine ⟨fun hx => absurd (lastAdded_has _ _ _ _ _ _ h2) hx, fun h1' u' hl => ?_⟩
    obtain ⟨_, e⟩ := lastAdded_det _ _ _ _ _ _ _ _ h2 hl
    subst e
    unfold callAfter callName
    rw [h3]
    rfl

/-- C153, exactly: under a name of TTP under which the user added functions, the last of them runs - except if the object imported
the file of that name only after the function was added: then the function of TTP runs. -/
theorem C153_own_name (h : List (FnOp U)) (i : Nat) (p : PyFile) (hp : p ∈ files) (f n : Str) (hg : GoesBy p f n)
    (h1 : List (FnOp U)) (u : U) (hl : LastAdded h i p.dir n h1 u) :
    ((HasRead h i p → HasRead h1 i p) → callAfter files h i p.dir n = .ok ⟨.user u, none⟩) ∧
    (HasRead h i p → ¬ HasRead h1 i p → ∃ j, callAfter files h i p.dir n = .ok ⟨.builtin p.dir p.mod f, j⟩) := by
  obtain ⟨r, hr, ⟨h2, h3⟩ | ⟨h1', u', rfl, h2, h3⟩⟩ := call_of files hc h i p hp f n hg
  · have hx : ¬ HasRead h1 i p ∧ HasRead h i p := by
      rcases h3 with h3 | ⟨h1', u', h4, h5, h6⟩
      · exact absurd (lastAdded_has _ _ _ _ _ _ hl) h3
      · obtain ⟨e, _⟩ := lastAdded_det _ _ _ _ _ _ _ _ hl h4
        rw [e]
        exact ⟨h5, h6⟩
    refine ⟨fun h => absurd (h hx.2) hx.1, fun _ _ => ?_⟩
    obtain ⟨w, j⟩ := r
    exact ⟨j, by rw [hr]; simp only at h2; rw [h2]⟩
  · obtain ⟨e, e2⟩ := lastAdded_det _ _ _ _ _ _ _ _ hl h2
    subst e e2
    exact ⟨fun _ => hr, fun a b => absurd (h3 a) b⟩

/-! ## C154: whose variables, results and tables a function sees -/

omit hc in
theorem lastReader_det (h : List (FnOp U)) (p : PyFile) (j k : Nat) (hj : LastReader h j p) (hk : LastReader h k p) : j = k := by
  obtain ⟨a1, n, a2, e, r1, r2, r3⟩ := hj
  obtain ⟨b1, m, b2, e', s1, s2, s3⟩ := hk
  have hkj := r3 k (by rw [e']; have := hasRead_mono _ b2 _ _ s2; simpa using this)
  have hjk := s3 j (by rw [e]; have := hasRead_mono _ a2 _ _ r2; simpa using this)
  -- one of the two is not after the other
  have hlen : a1.length = b1.length := by
    rcases Nat.lt_trichotomy a1.length b1.length with hlt | heq | hlt
    · exfalso
      have : ∃ t, b1 = (a1 ++ [FnOp.call j p.dir n]) ++ t := by
        have e2 : a1 ++ FnOp.call j p.dir n :: a2 = b1 ++ FnOp.call k p.dir m :: b2 := e ▸ e'
        refine ⟨b1.drop (a1.length + 1), ?_⟩
        have h3 := congrArg (List.take (a1.length + 1)) e2
        rw [List.take_append_of_le_length (by omega : a1.length + 1 ≤ b1.length)] at h3
        have h4 : List.take (a1.length + 1) (a1 ++ FnOp.call j p.dir n :: a2) = a1 ++ [FnOp.call j p.dir n] := by
          rw [List.append_cons]
          exact List.take_left' (by simp)
        rw [h4] at h3
        rw [h3, List.take_append_drop]
      obtain ⟨t, e3⟩ := this
      exact s1 (e3 ▸ hasRead_mono _ t _ _ hkj)
    · exact heq
    · exfalso
      have : ∃ t, a1 = (b1 ++ [FnOp.call k p.dir m]) ++ t := by
        have e2 : b1 ++ FnOp.call k p.dir m :: b2 = a1 ++ FnOp.call j p.dir n :: a2 := e' ▸ e
        refine ⟨a1.drop (b1.length + 1), ?_⟩
        have h3 := congrArg (List.take (b1.length + 1)) e2
        rw [List.take_append_of_le_length (by omega : b1.length + 1 ≤ a1.length)] at h3
        have h4 : List.take (b1.length + 1) (b1 ++ FnOp.call k p.dir m :: b2) = b1 ++ [FnOp.call k p.dir m] := by
          rw [List.append_cons]
          exact List.take_left' (by simp)
        rw [h4] at h3
        rw [h3, List.take_append_drop]
      obtain ⟨t, e3⟩ := this
      exact r1 (e3 ▸ hasRead_mono _ t _ _ hjk)
  have e2 : a1 ++ FnOp.call j p.dir n :: a2 = b1 ++ FnOp.call k p.dir m :: b2 := e ▸ e'
  obtain ⟨_, e3⟩ := List.append_inj e2 hlen
  injection e3 with e4 _
  injection e4

/-- C154, exactly: when a call in object `i` runs a function of TTP, that function sees the `_ttp_` - the variables, the lookup
tables, the results, the other functions - of the object that imported its file last, this call included, whichever object calls
it. -/
theorem C154_sees (h : List (FnOp U)) (i : Nat) (p : PyFile) (hp : p ∈ files) (f n : Str) (hg : GoesBy p f n) (s : Option Nat)
    (hr : callAfter files h i p.dir n = .ok ⟨.builtin p.dir p.mod f, s⟩) :
    ∃ j, s = some j ∧ ∀ k, LastReader (h ++ [FnOp.call i p.dir n]) k p ↔ k = j := by
  have hi := lazyInv_after hc h
  suffices hx : ∃ j, s = some j ∧ LastReader (h ++ [FnOp.call i p.dir n]) j p by
    obtain ⟨j, e, hl⟩ := hx
    exact ⟨j, e, fun k => ⟨fun hk => lastReader_det _ _ _ _ hk hl, fun e => e ▸ hl⟩⟩
  obtain ⟨e, h1, h2⟩ := hi.entry i p hp f n hg
  unfold callAfter at hr
  have keep : (s = Dict.get? (fnAfter files h).owner (p.dir, p.mod)) → HasRead h i p →
      ∃ j, s = some j ∧ LastReader (h ++ [FnOp.call i p.dir n]) j p := by
    intro es hri
    obtain ⟨j, hj⟩ := (hi.owner p hp).2 ⟨i, hri⟩
    refine ⟨j, es.trans hj, lastReader_keep _ _ _ _ ?_ ((hi.owner p hp).1 j hj)⟩
    intro k hk
    rcases (hasRead_snoc _ _ _ _).1 hk with hk | ⟨_, _, e, _, _⟩
    · exact hk
    · injection e with e
      exact e ▸ hri
  cases h2 with
  | fresh a b =>
    rw [call_cached hc h i _ hi p hp f n hg h1] at hr
    simp only [ok_bind, pure_ok, Except.ok.injEq, Ran.mk.injEq, true_and] at hr
    exact ⟨i, hr.symm, h, n, [], by simp, b, (hasRead_snoc _ _ _ _).2 (.inr ⟨f, n, rfl, hg, a⟩), fun k hk => hk⟩
  | loaded a b =>
    unfold callName at hr
    rw [h1] at hr
    simp only [ok_bind, pure_ok, Except.ok.injEq, Ran.mk.injEq, true_and, seesOf] at hr
    exact keep hr.symm b
  | user h1' u a b =>
    unfold callName at hr
    rw [h1] at hr
    simp [ok_bind, pure_ok] at hr
  | lost h1' u a b c =>
    unfold callName at hr
    rw [h1] at hr
    simp only [ok_bind, pure_ok, Except.ok.injEq, Ran.mk.injEq, true_and, seesOf] at hr
    exact keep hr.symm c

/-- C154, in part: a function of TTP sees the object that calls it if no other object of the process has used a function of the
same file; in particular if there is only one object. Missing: processes in which another object uses functions of that file, see
`C154_other_object`. -/
theorem C154_own_partial (h : List (FnOp U)) (i : Nat) (p : PyFile) (hp : p ∈ files) (f n : Str) (hg : GoesBy p f n) (s : Option Nat)
    (ho : ∀ k m, FnOp.call k p.dir m ∈ h → (∃ g, GoesBy p g m) → k = i)
    (hr : callAfter files h i p.dir n = .ok ⟨.builtin p.dir p.mod f, s⟩) : s = some i := by
  obtain ⟨j, e, hj⟩ := C154_sees files hc h i p hp f n hg s hr
  obtain ⟨h1, m, h2, e1, r1, r2, _⟩ := (hj j).2 rfl
  have hm : FnOp.call j p.dir m ∈ h ++ [FnOp.call i p.dir n] := by rw [e1]; simp
  have hgm : ∃ g, GoesBy p g m := by
    rcases (hasRead_snoc _ _ _ _).1 r2 with h | ⟨g, m', e2, hg', _⟩
    · exact absurd h r1
    · injection e2 with _ _ e2
      exact ⟨g, e2 ▸ hg'⟩
  rw [e]
  rcases List.mem_append.1 hm with hm | hm
  · rw [ho j m hm hgm]
  · simp only [List.mem_singleton, FnOp.call.injEq] at hm
    rw [hm.1]

/-- C154, in part: the first function of a file that an object calls sees that object. -/
theorem C154_first_call_partial (h : List (FnOp U)) (i : Nat) (p : PyFile) (hp : p ∈ files) (f n : Str) (hg : GoesBy p f n)
    (hn : ¬ HasAdded h i p.dir n) (hr : ¬ HasRead h i p) :
    callAfter files h i p.dir n = .ok ⟨.builtin p.dir p.mod f, some i⟩ := by
  obtain ⟨j, e⟩ := C153_installed_partial files hc h i p hp f n hg hn
  obtain ⟨k, rfl, hk⟩ := C154_sees files hc h i p hp f n hg j e
  have : LastReader (h ++ [FnOp.call i p.dir n]) i p :=
    ⟨h, n, [], by simp, hr, (hasRead_snoc _ _ _ _).2 (.inr ⟨f, n, rfl, hg, hn⟩), fun k hk => hk⟩
  rw [e, (hk i).1 this]

end

/-! ## The installation -/

namespace Ex

def lzMatch : Str := "match".toList
def lzContains : Str := "contains".toList
def lzEqual : Str := "equal".toList
def lzString : PyFile := ⟨lzMatch, "string".toList, ["exclude".toList, "equal".toList, "notequal".toList, "contains".toList,
  "sformat".toList, "isdigit".toList, "notdigit".toList, "greaterthan".toList, "lessthan".toList, "join".toList, "append".toList,
  "prepend".toList, "sprint".toList, "replaceall".toList, "truncate".toList], [("sprint".toList, "print".toList)]⟩
def lzLookup : PyFile := ⟨lzMatch, "lookup".toList, ["lookup".toList, "rlookup".toList, "gpvlookup".toList], []⟩

end Ex

open Ex

set_option maxRecDepth 20000 in
theorem lzString_mem : lzString ∈ ttpFiles := by decide +kernel

set_option maxRecDepth 20000 in
theorem lzLookup_mem : lzLookup ∈ ttpFiles := by decide +kernel

theorem lz_contains : GoesBy lzString lzContains lzContains := by
  rw [goesBy_iff _ (by decide)]
  decide

theorem lz_print : GoesBy lzString "sprint".toList "print".toList := by
  rw [goesBy_iff _ (by decide)]
  decide

theorem lz_lookup : GoesBy lzLookup "lookup".toList "lookup".toList := by
  rw [goesBy_iff _ (by decide)]
  decide

attribute [local irreducible] ttpFiles callAfter

/-- the hypotheses of `C153_installed_partial` and `C154_first_call_partial` are met: `print` after `equal` in another object -/
theorem C153_example : callAfter ttpFiles [FnOp.call 1 lzMatch lzEqual, FnOp.add 0 lzMatch lzContains 7] 0 lzMatch "print".toList =
    .ok ⟨.builtin lzMatch "string".toList "sprint".toList, some 0⟩ := by
  have key := C154_first_call_partial ttpFiles ttpFiles_clean [FnOp.call 1 lzMatch lzEqual, FnOp.add 0 lzMatch lzContains 7] 0 lzString
    lzString_mem "sprint".toList "print".toList lz_print ?_ ?_
  · exact key
  · rintro ⟨u, h⟩
    simp only [List.mem_cons, List.not_mem_nil, or_false, reduceCtorEq, false_or, FnOp.add.injEq] at h
    exact absurd h.2.2.1 (by decide)
  · intro h
    have := (hasRead_snoc [FnOp.call 1 lzMatch lzEqual] (FnOp.add 0 lzMatch lzContains 7) 0 lzString).1 h
    rcases this with h | ⟨_, _, e, _⟩
    · have := (hasRead_snoc ([] : List (FnOp Nat)) (FnOp.call 1 lzMatch lzEqual) 0 lzString).1 h
      rcases this with ⟨_, _, _, _, h, _⟩ | ⟨_, _, e, _⟩
      · simp at h
      · cases e
    · cases e

/-- C153: the user adds an own `contains` for match variables; it runs, until some variable uses `equal`, a function of the same
file: from then on `contains` of TTP runs. -/
theorem C153_overwritten (u : U) :
    callAfter ttpFiles [FnOp.add 0 lzMatch lzContains u] 0 lzMatch lzContains = .ok ⟨.user u, none⟩ ∧
    (∃ j, callAfter ttpFiles [FnOp.add 0 lzMatch lzContains u, FnOp.call 0 lzMatch lzEqual] 0 lzMatch lzContains =
      .ok ⟨.builtin lzMatch "string".toList lzContains, j⟩) ∧
    callAfter ttpFiles [FnOp.call 0 lzMatch lzEqual, FnOp.add 0 lzMatch lzContains u] 0 lzMatch lzContains = .ok ⟨.user u, none⟩ := by
  have hno : ¬ HasRead ([] : List (FnOp U)) 0 lzString := fun ⟨_, _, _, _, h, _⟩ => by simp at h
  have heq : GoesBy lzString lzEqual lzEqual := by rw [goesBy_iff _ (by decide)]; decide
  refine ⟨?_, ?_, ?_⟩
  · refine (C153_own_name ttpFiles ttpFiles_clean _ 0 lzString lzString_mem _ _ lz_contains [] u ⟨[], rfl, fun ⟨_, h⟩ => by cases h⟩).1 ?_
    intro h
    exact read_add [] 0 lzMatch lzContains u 0 lzString h
  · refine (C153_own_name ttpFiles ttpFiles_clean _ 0 lzString lzString_mem _ _ lz_contains [] u
      ⟨[FnOp.call 0 lzMatch lzEqual], rfl, fun ⟨_, h⟩ => by simp at h⟩).2 ?_ hno
    refine (hasRead_snoc [FnOp.add 0 lzMatch lzContains u] _ 0 lzString).2 (.inr ⟨lzEqual, lzEqual, rfl, heq, ?_⟩)
    rintro ⟨u', h⟩
    simp only [List.mem_cons, List.not_mem_nil, or_false, FnOp.add.injEq] at h
    exact absurd h.2.2.1 (by decide)
  · have key := (C153_own_name ttpFiles ttpFiles_clean [FnOp.call 0 lzMatch lzEqual, FnOp.add 0 lzMatch lzContains u] 0 lzString
      lzString_mem lzContains lzContains lz_contains [FnOp.call 0 lzMatch lzEqual] u ⟨[], rfl, fun ⟨_, h⟩ => by cases h⟩).1 ?_
    · exact key
    intro h
    exact read_add [FnOp.call 0 lzMatch lzEqual] 0 lzMatch lzContains u 0 lzString h

/-- C154: object 0 parses with `lookup`, then object 1 does; when object 0 parses again, its `lookup` looks into the tables of
object 1. -/
theorem C154_other_object :
    (callAfter ttpFiles ([] : List (FnOp U)) 0 lzMatch "lookup".toList =
      .ok ⟨.builtin lzMatch "lookup".toList "lookup".toList, some 0⟩) ∧
    callAfter ttpFiles ([FnOp.call 0 lzMatch "lookup".toList, FnOp.call 1 lzMatch "lookup".toList] : List (FnOp U)) 0 lzMatch "lookup".toList =
      .ok ⟨.builtin lzMatch "lookup".toList "lookup".toList, some 1⟩ := by
  have hno : ∀ i, ¬ HasRead ([] : List (FnOp U)) i lzLookup := fun i ⟨_, _, _, _, h, _⟩ => by simp at h
  have hna : ∀ (h : List (FnOp U)) i, (∀ op ∈ h, ∃ a b c, op = FnOp.call a b c) → ¬ HasAdded h i lzLookup.dir "lookup".toList := by
    rintro h i hh ⟨u, hu⟩
    obtain ⟨a, b, c, e⟩ := hh _ hu
    cases e
  have h01 : ∀ (h : List (FnOp U)), (∀ op ∈ h, ∃ a b c, op = FnOp.call a b c) → ∀ i,
      HasRead (h ++ [FnOp.call i lzMatch "lookup".toList]) i lzLookup :=
    fun h hh i => (hasRead_snoc _ _ _ _).2 (.inr ⟨_, _, rfl, lz_lookup, hna h i hh⟩)
  refine ⟨C154_first_call_partial ttpFiles ttpFiles_clean [] 0 lzLookup lzLookup_mem _ _ lz_lookup (hna _ _ (by simp)) (hno 0), ?_⟩
  obtain ⟨s, e⟩ := C153_installed_partial ttpFiles ttpFiles_clean
    ([FnOp.call 0 lzMatch "lookup".toList, FnOp.call 1 lzMatch "lookup".toList] : List (FnOp U)) 0 lzLookup lzLookup_mem _ _ lz_lookup
    (hna _ _ (by simp))
  obtain ⟨j, rfl, hj⟩ := C154_sees ttpFiles ttpFiles_clean _ 0 lzLookup lzLookup_mem _ _ lz_lookup s e
  have : LastReader ([FnOp.call 0 lzMatch "lookup".toList, FnOp.call 1 lzMatch "lookup".toList] ++ [FnOp.call 0 lzLookup.dir "lookup".toList] :
      List (FnOp U)) 1 lzLookup := by
    refine ⟨[FnOp.call 0 lzMatch "lookup".toList], "lookup".toList, [FnOp.call 0 lzLookup.dir "lookup".toList], rfl, ?_, h01 _ (by simp) 1, ?_⟩
    · intro h
      rcases (hasRead_snoc [] _ _ _).1 h with h | ⟨_, _, e, _⟩
      · exact hno 1 h
      · injection e with e; cases e
    · intro k hk
      rcases (hasRead_snoc [FnOp.call 0 lzMatch "lookup".toList, FnOp.call 1 lzMatch "lookup".toList] _ _ _).1 hk with h | ⟨_, _, e, _⟩
      · exact h
      · injection e with e
        subst e
        exact hasRead_mono [FnOp.call 0 lzMatch "lookup".toList] _ _ _ (h01 [] (by simp) 0)
  have e1 : (1 : Nat) = j := (hj 1).1 this
  subst e1
  exact e

end Props
