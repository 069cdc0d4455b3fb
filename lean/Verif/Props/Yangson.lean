import Verif.Spec.Yangson
import Verif.Proofs.Save
import Verif.Proofs.Line2
/-!
# C166, C167: validation with YANG modules
-/

namespace TTP.Yang
open Py Spec TTP

theorem check_judged (W : YWorld) (dm : DataModel) (o : Opts) (s : Scope) (c : Content) (hs : scopeOf o.scope = some s) (hc : contentOf o.content = some c)
    (v : Val) (r : Except Str Str) (h : Judgement dm s c o.toXml v r) : check W dm o v = r := by
  unfold check
  cases h with
  | raw h => rw [h]
  | bad h1 h2 => rw [h1, hs, hc]; dsimp only; rw [h2]
  | noXml h1 h2 h3 h4 => rw [h1, hs, hc]; dsimp only; rw [h2, h3]; dsimp only; rw [if_pos rfl, h4]
  | good h1 h2 h3 => rw [h1, hs, hc]; dsimp only; rw [h2, h3]; dsimp only; rw [if_neg (by simp)]
  | goodXml h1 h2 h3 h4 => rw [h1, hs, hc]; dsimp only; rw [h2, h3]; dsimp only; rw [if_pos rfl, h4]

theorem checkList_all (W : YWorld) (dm : DataModel) (o : Opts) (hm : o.metadata = true) (vs : List Val) (rs : List (Except Str Str))
    (h : All2 (fun v r => check W dm o v = r) vs rs) (i : Nat) (r : Rep) (h1 : ∀ k ∈ Dict.keys r.exc, ∃ j < i, k = .i (j : Nat))
    (h2 : ∀ k ∈ Dict.keys r.valid, ∃ j < i, k = .i (j : Nat)) :
    checkList W dm o i vs r = some ⟨r.xmls ++ (if o.toXml then goodXmls rs else []), r.exc ++ tracesFrom i rs, r.valid ++ flagsFrom i rs⟩ := by
  induction h generalizing i r with
  | nil => simp [checkList, tracesFrom, flagsFrom, goodXmls]
  | @cons v x vs rs hv _ ih =>
    have f1 : (.i (i : Int) : Key) ∉ Dict.keys r.exc := by
      intro hk
      obtain ⟨j, hj, e⟩ := h1 _ hk
      injection e with e
      omega
    have f2 : (.i (i : Int) : Key) ∉ Dict.keys r.valid := by
      intro hk
      obtain ⟨j, hj, e⟩ := h2 _ hk
      injection e with e
      omega
    rw [checkList, hv]
    cases x with
    | ok x =>
      dsimp only
      rw [ih]
      · rw [Dict.set_of_not_mem _ _ _ f2]
        cases o.toXml <;> simp [tracesFrom, flagsFrom, goodXmls]
      · intro k hk
        obtain ⟨j, hj, e⟩ := h1 k hk
        exact ⟨j, by omega, e⟩
      · intro k hk
        rcases (Dict.mem_keys_set _ _ _ _).1 hk with rfl | hk
        · exact ⟨i, by omega, rfl⟩
        · obtain ⟨j, hj, e⟩ := h2 k hk
          exact ⟨j, by omega, e⟩
    | error t =>
      dsimp only
      rw [if_pos hm, ih]
      · rw [Dict.set_of_not_mem _ _ _ f2, Dict.set_of_not_mem _ _ _ f1]
        cases o.toXml <;> simp [tracesFrom, flagsFrom, goodXmls]
      · intro k hk
        rcases (Dict.mem_keys_set _ _ _ _).1 hk with rfl | hk
        · exact ⟨i, by omega, rfl⟩
        · obtain ⟨j, hj, e⟩ := h1 k hk
          exact ⟨j, by omega, e⟩
      · intro k hk
        rcases (Dict.mem_keys_set _ _ _ _).1 hk with rfl | hk
        · exact ⟨i, by omega, rfl⟩
        · obtain ⟨j, hj, e⟩ := h2 k hk
          exact ⟨j, by omega, e⟩

theorem checkList_bare (W : YWorld) (dm : DataModel) (o : Opts) (hm : o.metadata = false) (vs : List Val) (rs : List (Except Str Str))
    (h : All2 (fun v r => check W dm o v = r) vs rs) (i : Nat) (r : Rep) :
    ((∃ t, Except.error t ∈ rs) → checkList W dm o i vs r = none) ∧
    ((∀ t, Except.error t ∉ rs) → ∃ e f, checkList W dm o i vs r = some ⟨r.xmls ++ (if o.toXml then goodXmls rs else []), e, f⟩) := by
  induction h generalizing i r with
  | nil => exact ⟨by simp, fun _ => ⟨r.exc, r.valid, by simp [checkList, goodXmls]⟩⟩
  | @cons v x vs rs hv _ ih =>
    rw [checkList, hv]
    cases x with
    | error t =>
      refine ⟨fun _ => ?_, fun h => absurd (by simp) (h t)⟩
      simp [hm]
    | ok x =>
      dsimp only
      constructor
      · rintro ⟨t, ht⟩
        exact (ih _ _).1 ⟨t, by simpa using ht⟩
      · intro h
        obtain ⟨e, f, he⟩ := (ih (i + 1) ⟨if o.toXml then r.xmls ++ [.str x] else r.xmls, r.exc, Dict.set r.valid (.i i) (.bool true)⟩).2
          (fun t ht => h t (by simp [ht]))
        refine ⟨e, f, ?_⟩
        rw [he]
        cases o.toXml <;> simp [goodXmls]

theorem validate_chosen (W : YWorld) (hl : W.hasLibs = true) (m : Maps) (tag : Str) (libFile : Option (Except Str Str)) (files : Option (List (Str × Str)))
    (lib : Sum Str (List Val)) (hc : Chosen W m tag libFile files lib) (o : Opts) (data : Val) :
    (validate W m tag libFile files o data).2 = withLib W o data lib := by
  unfold validate
  rw [hl]
  rcases hc with ⟨h1, rfl⟩ | ⟨t, rfl, rfl, rfl⟩ | ⟨ms, rfl, rfl, h, rfl⟩
  · simp [h1]
  · simp
  · simp [h, withMade]

/-! ### The library -/

/-- many updates of a dictionary -/
def setAll {K V : Type} [DecidableEq K] (d : Dict K V) (kvs : List (K × V)) : Dict K V := kvs.foldl (fun d kv => Dict.set d kv.1 kv.2) d

theorem setAll_fresh {K V : Type} [DecidableEq K] (kvs : List (K × V)) (d : Dict K V) (h : (Dict.keys d ++ kvs.map (·.1)).Nodup) :
    setAll d kvs = d ++ kvs := by
  induction kvs generalizing d with
  | nil => simp [setAll]
  | cons kv kvs ih =>
    obtain ⟨k, v⟩ := kv
    have hk : k ∉ Dict.keys d := by
      intro hk
      rw [List.nodup_append] at h
      exact h.2.2 k hk k (by simp) rfl
    show setAll (Dict.set d k v) kvs = _
    rw [ih, Dict.set_of_not_mem _ _ _ hk]
    · simp
    · rw [Dict.keys_set_of_not_mem _ _ _ hk]
      simpa using h

theorem set_middle {K V : Type} [DecidableEq K] (pre : Dict K V) (k : K) (v v' : V) (d : Dict K V) (h : k ∉ Dict.keys pre) :
    Dict.set (pre ++ (k, v) :: d) k v' = pre ++ (k, v') :: d := by
  induction pre with
  | nil => simp [Dict.set]
  | cons a pre ih =>
    obtain ⟨k', x⟩ := a
    simp only [Dict.keys, List.map_cons, List.mem_cons, not_or] at h
    have h2 : ¬ k' = k := fun e => h.1 e.symm
    simp only [List.cons_append, Dict.set, h2, if_false]
    rw [ih h.2]

theorem setAll_same {K V : Type} [DecidableEq K] (kvs : List (K × V)) (pre d : Dict K V) (hk : Dict.keys d = kvs.map (·.1))
    (h : (Dict.keys pre ++ kvs.map (·.1)).Nodup) : setAll (pre ++ d) kvs = pre ++ kvs := by
  induction kvs generalizing pre d with
  | nil =>
    have : d = [] := by simpa [Dict.keys] using hk
    subst this
    simp [setAll]
  | cons kv kvs ih =>
    obtain ⟨k, v⟩ := kv
    cases d with
    | nil => simp [Dict.keys] at hk
    | cons a d =>
      obtain ⟨k', x⟩ := a
      simp only [Dict.keys, List.map_cons, List.cons.injEq] at hk
      obtain ⟨rfl, hk⟩ := hk
      have hnot : k' ∉ Dict.keys pre := by
        intro hk'
        rw [List.nodup_append] at h
        exact h.2.2 k' hk' k' (by simp) rfl
      show setAll (Dict.set (pre ++ (k', x) :: d) k' v) kvs = _
      rw [set_middle _ _ _ _ _ hnot]
      have := ih (pre ++ [(k', v)]) d hk (by simpa [Dict.keys] using h)
      simpa using this

/-- what the modules add -/
def modKvs (ys : List YFile) : List ((Str × Str) × Rec) := (mainOf ys).map (fun y => ((y.name, (recOf y).revision), recOf y))
/-- what the submodules add -/
def subKvs (ys : List YFile) : List (Str × Rec) := (partsOf ys).map (fun y => (y.name, recOf y))

theorem entries_all (ys : List YFile) (m : Maps) : ys.foldl entry m = ⟨setAll m.mods (modKvs ys), setAll m.subs (subKvs ys)⟩ := by
  induction ys generalizing m with
  | nil => rfl
  | cons y ys ih =>
    rw [List.foldl_cons, ih]
    by_cases h : y.keyword = c!"submodule"
    · simp [entry, isSub, h, modKvs, subKvs, mainOf, partsOf, setAll]
    · simp [entry, isSub, h, modKvs, subKvs, mainOf, partsOf, setAll]

theorem readFiles_all (parse : Str → Except Err YFile) (files : List (Str × Str)) (ys : List YFile)
    (h : All2 (fun (f : Str × Str) y => parse f.2 = .ok y) (yangFiles files) ys) (m : Maps) : readFiles parse m files = (ys.foldl entry m, none) := by
  induction files generalizing ys m with
  | nil =>
    cases h
    rfl
  | cons f files ih =>
    obtain ⟨n, t⟩ := f
    have he : endsWith n c!".yang" = decide (c!".yang" <:+ n) := by
      unfold endsWith
      rw [Bool.eq_iff_iff, decide_eq_true_iff, List.isSuffixOf_iff_suffix]
    unfold yangFiles at h
    rw [readFiles, he]
    by_cases hn : c!".yang" <:+ n
    · rw [List.filter_cons_of_pos (by simpa using hn)] at h
      cases h with
      | cons h1 h2 =>
        simp only [hn, decide_true, if_true]
        rw [h1]
        exact ih _ h2 _
    · rw [List.filter_cons_of_neg (by simpa using hn)] at h
      simp only [hn, decide_false, Bool.false_eq_true, if_false]
      exact ih _ h _

theorem foldl_stmt (sub : Bool) (ss : List Stmt) (r : Rec) :
    ss.foldl (stmt sub) r = ⟨if sub then r.namespace else ((argsOf c!"namespace" ss).getLast?).or r.namespace,
      r.importOnly && !(ss.any (fun s => decide (s.keyword ∈ dataKeywords))), r.features ++ argsOf c!"feature" ss,
      if r.revision = [] then revisionOf ss else r.revision, if sub then r.includes else r.includes ++ includesOf ss⟩ := by
  induction ss generalizing r with
  | nil =>
    obtain ⟨n, i, f, v, c⟩ := r
    cases sub <;> by_cases hv : v = [] <;> simp [argsOf, revisionOf, includesOf, hv]
  | cons s ss ih =>
    rw [List.foldl_cons, ih]
    obtain ⟨n, i, f, v, c⟩ := r
    obtain ⟨kw, a, rd⟩ := s
    have hd : dataKws = dataKeywords := rfl
    by_cases k1 : kw = c!"revision"
    · subst k1
      have e1 : c!"revision" ∉ dataKeywords := by decide
      by_cases hv : v = []
      · subst hv
        by_cases ha : a = []
        · subst ha; cases sub <;> simp [stmt, argsOf, revisionOf, includesOf, e1]
        · cases sub <;> simp [stmt, argsOf, revisionOf, includesOf, e1, ha]
      · cases sub <;> simp [stmt, argsOf, includesOf, hd, e1, hv]
    · by_cases k2 : kw ∈ dataKeywords
      · have e2 : kw ≠ c!"feature" := by rintro rfl; revert k2; decide
        have e3 : kw ≠ c!"namespace" := by rintro rfl; revert k2; decide
        have e4 : kw ≠ c!"include" := by rintro rfl; revert k2; decide
        cases sub <;> cases i <;> simp [stmt, argsOf, revisionOf, includesOf, hd, k1, k2, e2, e3, e4]
      · by_cases k3 : kw = c!"feature"
        · subst k3
          cases sub <;> simp [stmt, argsOf, revisionOf, includesOf, hd, k2]
        · by_cases k4 : kw = c!"namespace"
          · subst k4
            cases sub <;> simp [stmt, argsOf, revisionOf, includesOf, hd, k2, List.getLast?_cons]
          · by_cases k5 : kw = c!"include"
            · subst k5
              cases sub <;> simp [stmt, argsOf, revisionOf, includesOf, hd, k2]
            · cases sub <;> simp [stmt, argsOf, revisionOf, includesOf, hd, k1, k2, k3, k4, k5]

theorem recOf_eq (y : YFile) : recOf y = ⟨if isSub y then none else (argsOf c!"namespace" y.subs).getLast?,
    !(y.subs.any (fun s => decide (s.keyword ∈ dataKeywords))), argsOf c!"feature" y.subs, revisionOf y.subs,
    if isSub y then [] else includesOf y.subs⟩ := by
  unfold recOf
  rw [foldl_stmt]
  cases isSub y <;> simp

theorem adds_iff (y : YFile) : (recOf y).importOnly = false ↔ AddsNodes y := by
  rw [recOf_eq]
  simp [AddsNodes]

theorem modKvs_keys (ys : List YFile) : (modKvs ys).map (·.1) = (mainOf ys).map (fun y => (y.name, revisionOf y.subs)) := by
  simp only [modKvs, List.map_map]
  apply List.map_congr_left
  intro y _
  simp [recOf_eq]

theorem subKvs_keys (ys : List YFile) : (subKvs ys).map (·.1) = (partsOf ys).map (·.name) := by
  simp [subKvs, Function.comp_def]

theorem subs_get (ys : List YFile) (hn : ((partsOf ys).map (·.name)).Nodup) (s : YFile) (hs : s ∈ ys) (hk : s.keyword = c!"submodule") :
    Dict.get? (subKvs ys) s.name = some (recOf s) := by
  refine Dict.get?_of_mem _ _ _ ?_ ?_
  · show (Dict.keys (subKvs ys)).Nodup
    unfold Dict.keys
    rw [subKvs_keys]
    exact hn
  · exact List.mem_map.2 ⟨s, List.mem_filter.2 ⟨hs, by simpa using hk⟩, rfl⟩

theorem subLoop_all (ys : List YFile) (hn : ((partsOf ys).map (·.name)).Nodup) (incs : List (Str × Option Str)) (subs : List YFile)
    (h : All2 (fun (i : Str × Option Str) (s : YFile) => s ∈ ys ∧ s.keyword = c!"submodule" ∧ s.name = i.1 ∧ (i.2 = none ∨ i.2 = some (revisionOf s.subs))) incs subs)
    (es : List Val) (io : Bool) (fs : List Str) : subLoop (subKvs ys) incs es io fs =
      .go (es ++ subs.map (fun s => .dict [(.s c!"name", .str s.name), (.s c!"revision", .str (revisionOf s.subs))]))
        (io || subs.any (fun s => (recOf s).importOnly)) (fs ++ subs.flatMap (fun s => argsOf c!"feature" s.subs)) := by
  induction h generalizing es io fs with
  | nil => simp [subLoop]
  | @cons i s incs subs hi _ ih =>
    obtain ⟨n, rev⟩ := i
    obtain ⟨h1, h2, rfl, h4⟩ := hi
    have hr : (recOf s).revision = revisionOf s.subs := by rw [recOf_eq]
    have hf : (recOf s).features = argsOf c!"feature" s.subs := by rw [recOf_eq]
    have hfit : revFits rev (revisionOf s.subs) = true := by
      rcases h4 with rfl | rfl <;> simp [revFits]
    rw [subLoop, subs_get ys hn s h1 h2]
    dsimp only
    rw [hr, hfit, if_pos rfl, ih, hf]
    simp [Bool.or_assoc]

theorem modLoop_keys (subs : Dict Str Rec) (ms : List ((Str × Str) × Rec)) (out : List Val) : (modLoop subs ms out).1.map (·.1) = ms.map (·.1) := by
  induction ms generalizing out with
  | nil => rfl
  | cons a ms ih =>
    obtain ⟨k, r⟩ := a
    rw [modLoop]
    cases r.namespace with
    | none => rfl
    | some ns =>
      dsimp only
      cases subLoop subs r.includes [] r.importOnly r.features with
      | stop fs => rfl
      | go es io fs => simp [ih]

theorem modEntry_is (ys : List YFile) (hn : ((partsOf ys).map (·.name)).Nodup) (y : YFile) (hy : y.keyword ≠ c!"submodule") (v : Val) (h : LibEntry ys y v) :
    ∃ ns es io fs, (recOf y).namespace = some ns ∧
      subLoop (subKvs ys) (recOf y).includes [] (recOf y).importOnly (recOf y).features = .go es io fs ∧
      modEntry (y.name, (recOf y).revision) ns es io fs = v := by
  obtain ⟨ns, subs, fs, ct, h1, h2, h3, h4, rfl⟩ := h
  have hs : isSub y = false := by simpa [isSub] using hy
  have e1 : (recOf y).namespace = (argsOf c!"namespace" y.subs).getLast? := by rw [recOf_eq, hs]; rfl
  have e2 : (recOf y).includes = includesOf y.subs := by rw [recOf_eq, hs]; rfl
  have e3 : (recOf y).features = argsOf c!"feature" y.subs := by rw [recOf_eq]
  have e4 : (recOf y).revision = revisionOf y.subs := by rw [recOf_eq]
  have hio : ct = if (recOf y).importOnly || subs.any (fun s => (recOf s).importOnly) then c!"import" else c!"implement" := by
    have key : ((recOf y).importOnly || subs.any (fun s => (recOf s).importOnly)) = false ↔ (AddsNodes y ∧ ∀ s ∈ subs, AddsNodes s) := by
      rw [Bool.or_eq_false_iff, List.any_eq_false, adds_iff]
      simp only [Bool.not_eq_true, adds_iff]
    rcases h4 with ⟨a, b⟩ | ⟨a, b⟩
    · rw [key.2 a]; exact b
    · cases hx : ((recOf y).importOnly || subs.any (fun s => (recOf s).importOnly)) with
      | false => exact absurd (key.1 hx) a
      | true => exact b
  have hsl := subLoop_all ys hn _ subs h2 [] (recOf y).importOnly (argsOf c!"feature" y.subs)
  refine ⟨ns, _, _, _, e1.trans h1, by rw [e2, e3]; exact hsl, ?_⟩
  · unfold modEntry
    rw [e4, hio, ← h3]
    have : (if subs.map (fun s => Val.dict [(.s c!"name", .str s.name), (.s c!"revision", .str (revisionOf s.subs))]) = [] then ([] : List (Key × Val)) else
        [(.s c!"submodule", .list (subs.map (fun s => Val.dict [(.s c!"name", .str s.name), (.s c!"revision", .str (revisionOf s.subs))])))]) =
        (if subs = [] then [] else [(.s c!"submodule", .list (subs.map (fun s => Val.dict [(.s c!"name", .str s.name), (.s c!"revision", .str (revisionOf s.subs))])))]) := by
      cases subs <;> simp
    simp only [List.nil_append] at this ⊢
    rw [this]

theorem modLoop_all (ys : List YFile) (hn : ((partsOf ys).map (·.name)).Nodup) (ms : List YFile) (hm : ∀ y ∈ ms, y.keyword ≠ c!"submodule") (vs : List Val)
    (h : All2 (LibEntry ys) ms vs) (out : List Val) :
    (modLoop (subKvs ys) (ms.map (fun y => ((y.name, (recOf y).revision), recOf y))) out).2 = .lib (out ++ vs) := by
  induction h generalizing out with
  | nil => simp [modLoop]
  | @cons y v ms vs hy _ ih =>
    obtain ⟨ns, es, io, fs, e1, e2, e3⟩ := modEntry_is ys hn y (hm y (by simp)) v hy
    rw [List.map_cons, modLoop, e1]
    dsimp only
    rw [e2]
    dsimp only
    rw [ih (fun x hx => hm x (by simp [hx])), e3]
    simp

theorem makeLibrary_fresh (parse : Str → Except Err YFile) (files : List (Str × Str)) (ys : List YFile)
    (h : All2 (fun (f : Str × Str) y => parse f.2 = .ok y) (yangFiles files) ys) (ho : OnceEach ys) (m : Maps)
    (hm : m = ⟨[], []⟩ ∨ (m.mods.map (·.1) = (modKvs ys).map (·.1) ∧ m.subs.map (·.1) = (subKvs ys).map (·.1))) :
    makeLibrary parse m (some files) = (⟨(modLoop (subKvs ys) (modKvs ys) []).1, subKvs ys⟩, (modLoop (subKvs ys) (modKvs ys) []).2) := by
  have hmods : setAll m.mods (modKvs ys) = modKvs ys ∧ setAll m.subs (subKvs ys) = subKvs ys := by
    have n1 : ((modKvs ys).map (·.1)).Nodup := by rw [modKvs_keys]; exact ho.1
    have n2 : ((subKvs ys).map (·.1)).Nodup := by rw [subKvs_keys]; exact ho.2
    rcases hm with rfl | ⟨h1, h2⟩
    · exact ⟨by simpa using setAll_fresh (modKvs ys) [] (by simpa [Dict.keys] using n1), by simpa using setAll_fresh (subKvs ys) [] (by simpa [Dict.keys] using n2)⟩
    · exact ⟨by simpa using setAll_same (modKvs ys) [] m.mods h1 (by simpa [Dict.keys] using n1),
        by simpa using setAll_same (subKvs ys) [] m.subs h2 (by simpa [Dict.keys] using n2)⟩
  unfold makeLibrary
  dsimp only
  rw [readFiles_all parse files ys h, entries_all, hmods.1, hmods.2]

theorem subLoop_stop (ys : List YFile) (incs : List (Str × Option Str)) (i : Str × Option Str) (hi : i ∈ incs)
    (h : ∀ s ∈ ys, s.keyword = c!"submodule" → s.name = i.1 → i.2 ≠ none ∧ i.2 ≠ some (revisionOf s.subs)) (es : List Val) (io : Bool) (fs : List Str) :
    ∃ fs', subLoop (subKvs ys) incs es io fs = .stop fs' := by
  induction incs generalizing es io fs with
  | nil => cases hi
  | cons a incs ih =>
    obtain ⟨n, rev⟩ := a
    rw [subLoop]
    cases hg : Dict.get? (subKvs ys) n with
    | none => exact ⟨fs, rfl⟩
    | some r =>
      dsimp only
      by_cases hf : revFits rev r.revision = true
      · rw [if_pos hf]
        rcases List.mem_cons.1 hi with rfl | hi
        · obtain ⟨s, hs, e⟩ := List.mem_map.1 (Dict.mem_of_get? _ _ _ hg)
          simp only [Prod.mk.injEq] at e
          obtain ⟨h1, h2⟩ := e
          obtain ⟨hs1, hs2⟩ := List.mem_filter.1 hs
          obtain ⟨a1, a2⟩ := h s hs1 (by simpa using hs2) h1
          have hr : r.revision = revisionOf s.subs := by rw [← h2, recOf_eq]
          rw [hr] at hf
          simp only [revFits, Bool.or_eq_true, Option.isNone_iff_eq_none, decide_eq_true_eq] at hf
          rcases hf with hf | hf
          · exact absurd hf a1
          · exact absurd hf a2
        · exact ih hi _ _ _
      · rw [if_neg hf]
        exact ⟨fs, rfl⟩

theorem modLoop_stop (ys : List YFile) (ms : List YFile) (hns : ∀ y ∈ ms, (recOf y).namespace ≠ none) (y : YFile) (hy : y ∈ ms)
    (hst : ∀ es io fs, ∃ fs', subLoop (subKvs ys) (recOf y).includes es io fs = .stop fs') (out : List Val) :
    (modLoop (subKvs ys) (ms.map (fun y => ((y.name, (recOf y).revision), recOf y))) out).2 = .one := by
  induction ms generalizing out with
  | nil => cases hy
  | cons a ms ih =>
    rw [List.map_cons, modLoop]
    cases hn : (recOf a).namespace with
    | none => exact absurd hn (hns a (by simp))
    | some ns =>
      dsimp only
      cases hs : subLoop (subKvs ys) (recOf a).includes [] (recOf a).importOnly (recOf a).features with
      | stop fs => rfl
      | go es io fs =>
        dsimp only
        rcases List.mem_cons.1 hy with rfl | hy
        · obtain ⟨fs', h⟩ := hst [] (recOf y).importOnly (recOf y).features
          rw [h] at hs
          cases hs
        · exact ih (fun x hx => hns x (by simp [hx])) hy _

end TTP.Yang

namespace Props
open Py Spec TTP TTP.Yang

/-- C166. The validation of a list of results with metadata: flags and tracebacks by number, the results as they are or the XML of the valid ones. -/
theorem C166_list (W : YWorld) (hl : W.hasLibs = true) (m : Maps) (tag : Str) (libFile : Option (Except Str Str)) (files : Option (List (Str × Str)))
    (lib : Sum Str (List Val)) (hc : Chosen W m tag libFile files lib) (dm : DataModel) (hd : W.make lib = .ok dm)
    (o : Opts) (hm : o.metadata = true) (s : Scope) (c : Content) (hs : scopeOf o.scope = some s) (hk : contentOf o.content = some c)
    (vs : List Val) (rs : List (Except Str Str)) (hv : All2 (fun v r => Judgement dm s c o.toXml v r) vs rs) :
    (validate W m tag libFile files o (.list vs)).2 =
      yangReport (.list (if o.toXml then goodXmls rs else vs)) (.dict (tracesFrom 0 rs)) (.dict (flagsFrom 0 rs)) := by
  have h : All2 (fun v r => check W dm o v = r) vs rs := by
    induction hv with
    | nil => exact .nil
    | cons h _ ih => exact .cons (check_judged W dm o s c hs hk _ _ h) ih
  rw [validate_chosen W hl m tag libFile files lib hc, withLib, hd]
  simp only [run, checkList_all W dm o hm vs rs h 0 ⟨[], [], []⟩ (by simp [Dict.keys]) (by simp [Dict.keys]), final, hm, if_true, report, yangReport, List.nil_append]
  cases o.toXml <;> simp

/-- C166. The validation of a list without metadata: `False` if one of the items is not valid, otherwise the results or their XML. -/
theorem C166_bare_list (W : YWorld) (hl : W.hasLibs = true) (m : Maps) (tag : Str) (libFile : Option (Except Str Str)) (files : Option (List (Str × Str)))
    (lib : Sum Str (List Val)) (hc : Chosen W m tag libFile files lib) (dm : DataModel) (hd : W.make lib = .ok dm)
    (o : Opts) (hm : o.metadata = false) (s : Scope) (c : Content) (hs : scopeOf o.scope = some s) (hk : contentOf o.content = some c)
    (vs : List Val) (rs : List (Except Str Str)) (hv : All2 (fun v r => Judgement dm s c o.toXml v r) vs rs) :
    ((∃ t, Except.error t ∈ rs) → (validate W m tag libFile files o (.list vs)).2 = .bool false) ∧
    ((∀ t, Except.error t ∉ rs) → (validate W m tag libFile files o (.list vs)).2 = .list (if o.toXml then goodXmls rs else vs)) := by
  have h : All2 (fun v r => check W dm o v = r) vs rs := by
    induction hv with
    | nil => exact .nil
    | cons h _ ih => exact .cons (check_judged W dm o s c hs hk _ _ h) ih
  have key := checkList_bare W dm o hm vs rs h 0 ⟨[], [], []⟩
  rw [validate_chosen W hl m tag libFile files lib hc, withLib, hd]
  simp only [run]
  constructor
  · intro he
    rw [key.1 he]
  · intro he
    obtain ⟨e, f, h1⟩ := key.2 he
    rw [h1]
    simp only [final, hm, Bool.false_eq_true, if_false, List.nil_append]
    cases o.toXml <;> simp

/-- C166. The validation of a dictionary: with metadata a report, without it `False` or the results. -/
theorem C166_dict (W : YWorld) (hl : W.hasLibs = true) (m : Maps) (tag : Str) (libFile : Option (Except Str Str)) (files : Option (List (Str × Str)))
    (lib : Sum Str (List Val)) (hc : Chosen W m tag libFile files lib) (dm : DataModel) (hd : W.make lib = .ok dm)
    (o : Opts) (s : Scope) (c : Content) (hs : scopeOf o.scope = some s) (hk : contentOf o.content = some c) (d : Dict Key Val) :
    (∀ x, Judgement dm s c o.toXml (.dict d) (.ok x) → (validate W m tag libFile files o (.dict d)).2 =
      if o.metadata then yangReport (if o.toXml then .str x else .dict d) (.dict []) (.bool true) else if o.toXml then .str x else .dict d) ∧
    (∀ t, Judgement dm s c o.toXml (.dict d) (.error t) → (validate W m tag libFile files o (.dict d)).2 =
      if o.metadata then yangReport (if o.toXml then .list [] else .dict d) (.str t) (.bool false) else .bool false) := by
  rw [validate_chosen W hl m tag libFile files lib hc, withLib, hd]
  constructor
  · intro x h
    simp only [run, check_judged W dm o s c hs hk _ _ h, final, report, yangReport]
  · intro t h
    simp only [run, check_judged W dm o s c hs hk _ _ h, final, report, yangReport]
    cases o.metadata <;> simp

/-- C166. Another scope or kind of content than those that are known, for items that can be read: nothing is valid, without any check. -/
theorem C166_unknown_scope (W : YWorld) (hl : W.hasLibs = true) (m : Maps) (tag : Str) (libFile : Option (Except Str Str)) (files : Option (List (Str × Str)))
    (lib : Sum Str (List Val)) (hc : Chosen W m tag libFile files lib) (dm : DataModel) (hd : W.make lib = .ok dm)
    (o : Opts) (hm : o.metadata = true) (hs : o.scope ∉ [c!"all", c!"semantics", c!"syntax"] ∨ o.content ∉ [c!"all", c!"config", c!"nonconfig"])
    (vs : List Val) (hv : ∀ v ∈ vs, dm.raw v = none) : ∃ result exception,
      (validate W m tag libFile files o (.list vs)).2 = yangReport result exception (.dict (flagsFrom 0 (vs.map (fun _ => .error [])))) := by
  have h : All2 (fun v r => check W dm o v = r) vs (vs.map (fun _ => .error (W.trace .unboundLocal))) := by
    induction vs with
    | nil => exact .nil
    | cons v vs ih =>
      refine .cons ?_ (ih (fun x hx => hv x (by simp [hx])))
      unfold check
      rw [hv v (by simp)]
      dsimp only
      rcases hs with hs | hs
      · simp only [List.mem_cons, List.not_mem_nil, or_false, not_or] at hs
        have : scopeOf o.scope = none := by simp [scopeOf, hs]
        rw [this]
      · simp only [List.mem_cons, List.not_mem_nil, or_false, not_or] at hs
        have : contentOf o.content = none := by simp [contentOf, hs]
        rw [this]
        cases scopeOf o.scope <;> rfl
  have hf : ∀ (i : Nat) (a b : Str), flagsFrom i (vs.map (fun _ => .error a)) = flagsFrom i (vs.map (fun _ => .error b)) := by
    clear hv h
    induction vs with
    | nil => intro i a b; rfl
    | cons v vs ih => intro i a b; simp only [List.map_cons, flagsFrom, ih (i + 1) a b]
  rw [validate_chosen W hl m tag libFile files lib hc, withLib, hd]
  simp only [run, checkList_all W dm o hm vs _ h 0 ⟨[], [], []⟩ (by simp [Dict.keys]) (by simp [Dict.keys]), final, hm, if_true, report, yangReport, List.nil_append]
  exact ⟨_, _, by rw [hf 0 _ []]⟩

/-- C166. Results that are neither a list nor a dictionary - an earlier function of the output tag made a text of them - are not checked at all: they
come back as they are (an empty list if XML is asked for), and the report says nothing about them. -/
theorem C166_unchecked (W : YWorld) (hl : W.hasLibs = true) (m : Maps) (tag : Str) (libFile : Option (Except Str Str)) (files : Option (List (Str × Str)))
    (lib : Sum Str (List Val)) (hc : Chosen W m tag libFile files lib) (dm : DataModel) (hd : W.make lib = .ok dm) (o : Opts) (data : Val)
    (hv : ∀ vs, data ≠ .list vs) (hk : ∀ d, data ≠ .dict d) :
    (validate W m tag libFile files o data).2 =
      if o.metadata then yangReport (if o.toXml then .list [] else data) (.dict []) (.dict []) else if o.toXml then .list [] else data := by
  rw [validate_chosen W hl m tag libFile files lib hc, withLib, hd]
  cases data with
  | list vs => exact absurd rfl (hv vs)
  | dict d => exact absurd rfl (hk d)
  | _ => rfl

/-- C166. Without a data model - the library is not installed, a file is missing or wrong, a submodule is not there - `validate_yangson` returns `False`, with
metadata a report that says so in `success` (in `valid` only if the library is not installed). -/
theorem C166_no_model (W : YWorld) (m : Maps) (tag : Str) (libFile : Option (Except Str Str)) (files : Option (List (Str × Str)))
    (h : W.hasLibs = false ∨ (tag = [] ∧ ∃ t, libFile = some (.error t)) ∨ (tag = [] ∧ libFile = none ∧ ∀ ms, (makeLibrary W.parse m files).2 ≠ .lib ms) ∨
      ∃ lib t, Chosen W m tag libFile files lib ∧ W.make lib = .error t) (o : Opts) (data : Val) :
    (o.metadata = false → (validate W m tag libFile files o data).2 = .bool false) ∧
    (o.metadata = true → ∃ d, (validate W m tag libFile files o data).2 = .dict d ∧ Dict.get? d (.s c!"success") = some (.bool false) ∧
      Dict.get? d (.s c!"result") = some (if o.toXml then .list [] else data) ∧
      (W.hasLibs = false → Dict.get? d (.s c!"valid") = some (.dict [(.i 0, .bool false)])) ∧
      (W.hasLibs = true → Dict.get? d (.s c!"valid") = some (.dict [])) ∧ ∃ t, Dict.get? d (.s c!"exception") = some (.str t)) := by
  have key : ∃ t, (validate W m tag libFile files o data).2 = failed W o data t := by
    by_cases hl : W.hasLibs = false
    · exact ⟨W.noLibs, by unfold validate; rw [if_pos hl]⟩
    rcases h with h | ⟨rfl, t, rfl⟩ | ⟨rfl, rfl, h⟩ | ⟨lib, t, h1, h2⟩
    · exact absurd h hl
    · exact ⟨t, by unfold validate; rw [if_neg hl]; simp⟩
    · unfold validate
      rw [if_neg hl]
      simp only [ne_eq, not_true_eq_false, if_false]
      cases hx : (makeLibrary W.parse m files).2 with
      | lib ms => exact absurd hx (h ms)
      | one => exact ⟨_, rfl⟩
      | err e => exact ⟨_, rfl⟩
    · exact ⟨t, by rw [validate_chosen W (by simpa using hl) m tag libFile files lib h1, withLib, h2]⟩
  obtain ⟨t, ht⟩ := key
  rw [ht]
  unfold failed
  constructor
  · intro hm
    rw [hm]
    rfl
  · intro hm
    rw [hm, if_pos rfl]
    refine ⟨_, rfl, rfl, rfl, fun h => ?_, fun h => ?_, t, rfl⟩
    · show some (firstValid W) = _
      unfold firstValid; rw [h]; rfl
    · show some (firstValid W) = _
      unfold firstValid; rw [h]; rfl

/-- C167, for the first call of a process or a call with the same modules as before. The library of a directory: one entry for each module, in the order of the files. -/
theorem C167_library_partial (parse : Str → Except Err YFile) (files : List (Str × Str)) (ys : List YFile)
    (h : All2 (fun (f : Str × Str) y => parse f.2 = .ok y) (yangFiles files) ys) (ho : OnceEach ys) (vs : List Val) (hv : All2 (LibEntry ys) (mainOf ys) vs) :
    (makeLibrary parse ⟨[], []⟩ (some files)).2 = .lib vs := by
  rw [makeLibrary_fresh parse files ys h ho _ (Or.inl rfl)]
  have := modLoop_all ys ho.2 (mainOf ys) (fun y hy => by simpa using (List.mem_filter.1 hy).2) vs hv []
  simpa [modKvs] using this

/-- C167. A second call with the same directory gives the same library. -/
theorem C167_again (parse : Str → Except Err YFile) (files : List (Str × Str)) (ys : List YFile)
    (h : All2 (fun (f : Str × Str) y => parse f.2 = .ok y) (yangFiles files) ys) (ho : OnceEach ys) :
    (makeLibrary parse (makeLibrary parse ⟨[], []⟩ (some files)).1 (some files)).2 = (makeLibrary parse ⟨[], []⟩ (some files)).2 := by
  have h1 := makeLibrary_fresh parse files ys h ho _ (Or.inl rfl)
  rw [h1]
  dsimp only
  rw [makeLibrary_fresh parse files ys h ho ⟨(modLoop (subKvs ys) (modKvs ys) []).1, subKvs ys⟩ (Or.inr ⟨modLoop_keys _ _ _, rfl⟩)]

/-- C167, for the first call of a process. When a module includes a submodule that is not in the directory, or not with the revision that is asked for, there is no
library, and the validation fails (C166). -/
theorem C167_missing_partial (parse : Str → Except Err YFile) (files : List (Str × Str)) (ys : List YFile)
    (h : All2 (fun (f : Str × Str) y => parse f.2 = .ok y) (yangFiles files) ys) (ho : OnceEach ys)
    (hns : ∀ y ∈ mainOf ys, argsOf c!"namespace" y.subs ≠ []) (y : YFile) (hy : y ∈ mainOf ys) (i : Str × Option Str) (hi : i ∈ includesOf y.subs)
    (hm : ∀ s ∈ ys, s.keyword = c!"submodule" → s.name = i.1 → i.2 ≠ none ∧ i.2 ≠ some (revisionOf s.subs)) (ms : List Val) :
    (makeLibrary parse ⟨[], []⟩ (some files)).2 ≠ .lib ms := by
  rw [makeLibrary_fresh parse files ys h ho _ (Or.inl rfl)]
  have hsub : ∀ y ∈ mainOf ys, isSub y = false := by
    intro y hy
    have := (List.mem_filter.1 hy).2
    simpa [isSub] using this
  have key := modLoop_stop ys (mainOf ys) (by
    intro z hz
    rw [recOf_eq, hsub z hz]
    simpa using hns z hz) y hy (fun es io fs => subLoop_stop ys _ i (by rw [recOf_eq, hsub y hy]; exact hi) hm es io fs) []
  rw [show modKvs ys = (mainOf ys).map (fun y => ((y.name, (recOf y).revision), recOf y)) from rfl]
  dsimp only
  rw [key]
  simp

namespace Ex
/-- module `a` with a submodule -/
def yA : YFile := ⟨c!"module", c!"a", [⟨c!"namespace", c!"urn:a", none⟩, ⟨c!"include", c!"s", none⟩, ⟨c!"revision", c!"2020", none⟩, ⟨c!"revision", c!"2019", none⟩,
  ⟨c!"feature", c!"f", none⟩, ⟨c!"container", c!"top", none⟩]⟩
/-- its submodule -/
def yS : YFile := ⟨c!"submodule", c!"s", [⟨c!"belongs-to", c!"a", none⟩, ⟨c!"feature", c!"g", none⟩, ⟨c!"leaf", c!"x", none⟩]⟩
/-- module `b` -/
def yB : YFile := ⟨c!"module", c!"b", [⟨c!"namespace", c!"urn:b", none⟩]⟩
/-- files are written as their names -/
def yparse (t : Str) : Except Err YFile := if t = c!"A" then .ok yA else if t = c!"S" then .ok yS else if t = c!"B" then .ok yB else .error .valueError
/-- a directory -/
def ydir1 : List (Str × Str) := [(c!"a.yang", c!"A"), (c!"readme", c!"?"), (c!"s.yang", c!"S")]
/-- another directory -/
def ydir2 : List (Str × Str) := [(c!"b.yang", c!"B")]
/-- entry of `a`, with features -/
def yEntryA (fs : List Str) : Val := .dict [(.s c!"name", .str c!"a"), (.s c!"revision", .str c!"2020"), (.s c!"namespace", .str c!"urn:a"),
  (.s c!"feature", .list (fs.map .str)), (.s c!"submodule", .list [.dict [(.s c!"name", .str c!"s"), (.s c!"revision", .str [])]]),
  (.s c!"conformance-type", .str c!"implement")]
/-- entry of `b` -/
def yEntryB : Val := .dict [(.s c!"name", .str c!"b"), (.s c!"revision", .str []), (.s c!"namespace", .str c!"urn:b"), (.s c!"conformance-type", .str c!"import")]
end Ex

/-- C167, where it fails: the library of the second directory has the module of the first one too, with the features of its submodule twice. -/
theorem C167_stale : (makeLibrary Ex.yparse ⟨[], []⟩ (some Ex.ydir2)).2 = .lib [Ex.yEntryB] ∧
    (makeLibrary Ex.yparse (makeLibrary Ex.yparse ⟨[], []⟩ (some Ex.ydir1)).1 (some Ex.ydir2)).2 = .lib [Ex.yEntryA [c!"f", c!"g", c!"g"], Ex.yEntryB] :=
  ⟨rfl, rfl⟩

/-- the hypotheses of the theorems on libraries are met -/
example : (makeLibrary Ex.yparse ⟨[], []⟩ (some Ex.ydir1)).2 = .lib [Ex.yEntryA [c!"f", c!"g"]] := by
  refine C167_library_partial Ex.yparse Ex.ydir1 [Ex.yA, Ex.yS] (.cons rfl (.cons rfl .nil)) ⟨by decide, by decide⟩ _
    (.cons ⟨c!"urn:a", [Ex.yS], [c!"f", c!"g"], c!"implement", rfl, .cons ⟨by decide, rfl, rfl, Or.inl rfl⟩ .nil, rfl, Or.inl ⟨⟨?_, ?_⟩, rfl⟩, rfl⟩ .nil)
  · exact ⟨⟨c!"container", c!"top", none⟩, by decide, by decide⟩
  · intro s hs
    simp only [List.mem_singleton] at hs
    subst hs
    exact ⟨⟨c!"leaf", c!"x", none⟩, by decide, by decide⟩
example : (makeLibrary Ex.yparse (makeLibrary Ex.yparse ⟨[], []⟩ (some Ex.ydir1)).1 (some Ex.ydir1)).2 = .lib [Ex.yEntryA [c!"f", c!"g"]] := by
  rw [C167_again Ex.yparse Ex.ydir1 [Ex.yA, Ex.yS] (.cons rfl (.cons rfl .nil)) ⟨by decide, by decide⟩]
  rfl
example (ms : List Val) : (makeLibrary Ex.yparse ⟨[], []⟩ (some [(c!"a.yang", c!"A")])).2 ≠ .lib ms :=
  C167_missing_partial Ex.yparse _ [Ex.yA] (show All2 _ [(c!"a.yang", c!"A")] [Ex.yA] from .cons rfl .nil) ⟨by decide, by decide⟩ (by decide) Ex.yA (by decide) (c!"s", none) (by decide) (by decide) ms

namespace Ex
/-- a data model: numbers cannot be read, dictionaries are valid if they are not empty -/
def ydm : DataModel where
  raw v := match v with
    | .int _ => some c!"raw"
    | _ => none
  check _ _ v := match v with
    | .dict [] => some c!"empty"
    | _ => none
  xml _ := .ok c!"<x/>"
/-- the library is installed -/
def yworld : YWorld := ⟨true, yparse, fun _ => .ok ydm, fun _ => c!"unbound", []⟩
end Ex

/-- the hypotheses of the theorems on validation are met -/
example : (validate Ex.yworld ⟨[], []⟩ c!"lib" none none ⟨c!"all", c!"config", true, true⟩ (.list [.int 1, .dict [(.s c!"a", .none)], .dict []])).2 =
    yangReport (.list [.str c!"<x/>"]) (.dict [(.i 0, .str c!"raw"), (.i 2, .str c!"empty")])
      (.dict [(.i 0, .bool false), (.i 1, .bool true), (.i 2, .bool false)]) :=
  C166_list Ex.yworld rfl ⟨[], []⟩ c!"lib" none none (.inl c!"lib") (Or.inl ⟨by decide, rfl⟩) Ex.ydm rfl ⟨c!"all", c!"config", true, true⟩ rfl .all .config rfl rfl _
    [.error c!"raw", .ok c!"<x/>", .error c!"empty"] (.cons (.raw rfl) (.cons (.goodXml rfl rfl rfl rfl) (.cons (.bad rfl rfl) .nil)))
example : (validate Ex.yworld ⟨[], []⟩ [] none (some Ex.ydir1) ⟨c!"all", c!"config", false, false⟩ (.list [.int 1, .dict []])).2 = .bool false :=
  (C166_bare_list Ex.yworld rfl ⟨[], []⟩ [] none (some Ex.ydir1) (.inr [Ex.yEntryA [c!"f", c!"g"]]) (Or.inr (Or.inr ⟨_, rfl, rfl, rfl, rfl⟩)) Ex.ydm rfl
    ⟨c!"all", c!"config", false, false⟩ rfl .all .config rfl rfl _ [.error c!"raw", .error c!"empty"] (.cons (.raw rfl) (.cons (.bad rfl rfl) .nil))).1 ⟨c!"raw", by simp⟩
example : (validate Ex.yworld ⟨[], []⟩ [] (some (.ok c!"file")) none ⟨c!"syntax", c!"all", false, false⟩ (.dict [(.s c!"a", .none)])).2 = .dict [(.s c!"a", .none)] :=
  (C166_dict Ex.yworld rfl ⟨[], []⟩ [] (some (.ok c!"file")) none (.inl c!"file") (Or.inr (Or.inl ⟨_, rfl, rfl, rfl⟩)) Ex.ydm rfl
    ⟨c!"syntax", c!"all", false, false⟩ .syn .all rfl rfl _).1 [] (.good rfl rfl rfl)
example : ∃ result exception, (validate Ex.yworld ⟨[], []⟩ c!"lib" none none ⟨c!"everything", c!"all", false, true⟩ (.list [.dict [(.s c!"a", .none)]])).2 =
    yangReport result exception (.dict [(.i 0, .bool false)]) :=
  C166_unknown_scope Ex.yworld rfl ⟨[], []⟩ c!"lib" none none (.inl c!"lib") (Or.inl ⟨by decide, rfl⟩) Ex.ydm rfl ⟨c!"everything", c!"all", false, true⟩ rfl
    (Or.inl (by decide)) [.dict [(.s c!"a", .none)]] (by intro v hv; simp only [List.mem_singleton] at hv; subst hv; rfl)
example : (validate Ex.yworld ⟨[], []⟩ c!"lib" none none ⟨c!"all", c!"config", false, true⟩ (.str c!"a,b")).2 =
    yangReport (.str c!"a,b") (.dict []) (.dict []) :=
  C166_unchecked Ex.yworld rfl ⟨[], []⟩ c!"lib" none none (.inl c!"lib") (Or.inl ⟨by decide, rfl⟩) Ex.ydm rfl _ _ (by intro vs h; cases h) (by intro d h; cases h)
example : (validate Ex.yworld ⟨[], []⟩ [] none (some [(c!"a.yang", c!"A")]) ⟨c!"all", c!"config", false, false⟩ (.dict [])).2 = .bool false :=
  (C166_no_model Ex.yworld ⟨[], []⟩ [] none _ (Or.inr (Or.inr (Or.inl ⟨rfl, rfl, fun ms =>
    C167_missing_partial Ex.yparse _ [Ex.yA] (show All2 _ [(c!"a.yang", c!"A")] [Ex.yA] from .cons rfl .nil) ⟨by decide, by decide⟩ (by decide) Ex.yA (by decide) (c!"s", none) (by decide) (by decide) ms⟩)))
    ⟨c!"all", c!"config", false, false⟩ (.dict [])).1 rfl

end Props
