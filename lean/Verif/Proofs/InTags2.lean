import Verif.Proofs.InTags
/-!
# Input tags of a template together
-/

namespace TTP
open Py Spec

/-- an input tag as the model reads it -/
def ReadAs (C : TplCtx) (gs : List TopGroup) (base : Str) (x : Xml) (q : InSt × List Datum) : Prop :=
  inState C gs x = .ok q.1 ∧ loadInput C gs base x = .ok (q.1.name, ⟨q.2, q.1.groups, q.1.functions, q.1.parameters⟩)

/-- the input that a tag gives -/
def inputOf (q : InSt × List Datum) : TInput := ⟨q.2, q.1.groups, q.1.functions, q.1.parameters⟩

/-- all tags that were read, in order -/
def putAll (C : TplCtx) (base : Str) : List (InSt × List Datum) → Dict Str TInput → Dict Str InSt → PyM (Dict Str TInput)
  | [], ins, _ => pure ins
  | q :: qs, ins, srcs => do
    let ins' ← putTag C base ins srcs q.1.name (inputOf q)
    putAll C base qs ins' (Dict.setdefault srcs q.1.name q.1)

/-- the data of an input tag -/
theorem loadInput_split {C : TplCtx} {gs : List TopGroup} {base : Str} {x : Xml} {r : Str × TInput} (h : loadInput C gs base x = .ok r) :
    ∃ s d, inState C gs x = .ok s ∧ r = (s.name, ⟨d, s.groups, s.functions, s.parameters⟩) ∧
      ((s.load = c!"text" ∧ ∃ t, x.text = some t ∧ t ≠ [] ∧ d = [⟨.text, .str t⟩]) ∨
        (¬ (s.load = c!"text" ∧ x.text.getD [] ≠ []) ∧ loadUrls C base s.extensions s.filters s.urls = .ok d)) := by
  unfold loadInput at h
  dsimp only at h
  obtain ⟨s, h1, h2⟩ := (bind_ok_iff _ _ _).1 h
  have urls : ∀ (_ : ¬ (s.load = c!"text" ∧ x.text.getD [] ≠ [])),
      (do let d ← loadUrls C base s.extensions s.filters s.urls; pure (s.name, (⟨d, s.groups, s.functions, s.parameters⟩ : TInput)) : PyM _) = .ok r →
      ∃ s d, inState C gs x = .ok s ∧ r = (s.name, ⟨d, s.groups, s.functions, s.parameters⟩) ∧
      ((s.load = c!"text" ∧ ∃ t, x.text = some t ∧ t ≠ [] ∧ d = [⟨.text, .str t⟩]) ∨
        (¬ (s.load = c!"text" ∧ x.text.getD [] ≠ []) ∧ loadUrls C base s.extensions s.filters s.urls = .ok d)) := by
    intro hn h2
    obtain ⟨d, h3, h4⟩ := (bind_ok_iff _ _ _).1 h2
    rw [pure_ok, Except.ok.injEq] at h4
    exact ⟨s, d, h1, h4.symm, Or.inr ⟨hn, h3⟩⟩
  cases ht : x.text with
  | none => rw [ht] at h2 urls; exact urls (by simp) h2
  | some t =>
    cases t with
    | nil => rw [ht] at h2 urls; exact urls (by simp) h2
    | cons c cs =>
      rw [ht] at h2 urls
      dsimp only at h2
      by_cases hl : s.load = c!"text"
      · rw [if_pos hl, pure_ok, ok_bind, pure_ok, Except.ok.injEq] at h2
        exact ⟨s, _, h1, h2.symm, Or.inl ⟨hl, _, rfl, by simp, rfl⟩⟩
      · rw [if_neg hl] at h2
        exact urls (fun e => hl e.1) h2

theorem readAs_of {C : TplCtx} {gs : List TopGroup} {base : Str} {x : Xml} {r : Str × TInput} (h : loadInput C gs base x = .ok r) :
    ∃ q, ReadAs C gs base x q ∧ r = (q.1.name, inputOf q) := by
  obtain ⟨s, d, h1, rfl, _⟩ := loadInput_split h
  exact ⟨(s, d), ⟨h1, h⟩, rfl⟩

theorem loadInputsFrom_put (C : TplCtx) (gs : List TopGroup) (base : Str) (xs : List Xml) (ins ins' : Dict Str TInput) (srcs : Dict Str InSt)
    (h : loadInputsFrom C gs base xs ins srcs = .ok ins') :
    ∃ qs, All2 (ReadAs C gs base) xs qs ∧ putAll C base qs ins srcs = .ok ins' := by
  induction xs generalizing ins srcs with
  | nil => exact ⟨[], .nil, h⟩
  | cons x xs ih =>
    rw [loadInputsFrom] at h
    obtain ⟨r, hr, h⟩ := (bind_ok_iff _ _ _).1 h
    obtain ⟨i1, h1, h⟩ := (bind_ok_iff _ _ _).1 h
    obtain ⟨q, hq, rfl⟩ := readAs_of hr
    rw [hq.1] at h
    obtain ⟨qs, h2, h3⟩ := ih _ _ h
    refine ⟨q :: qs, .cons hq h2, ?_⟩
    rw [putAll, h1, ok_bind]
    exact h3

theorem putTag_ok {C : TplCtx} {base : Str} {ins ins' : Dict Str TInput} {srcs : Dict Str InSt} {n : Str} {i : TInput}
    (h : putTag C base ins srcs n i = .ok ins') :
    (Dict.get? ins n = none ∧ ins' = Dict.set ins n i) ∨
    ∃ old data, Dict.get? ins n = some old ∧ mergeData C base (Dict.get? srcs n) old.data i.data = .ok data ∧
      ins' = Dict.set ins n { old with data := data, groups := C.eng.setOrder (old.groups ++ i.groups) } := by
  unfold putTag at h
  cases hg : Dict.get? ins n with
  | none =>
    rw [hg] at h
    dsimp only at h
    rw [pure_ok, Except.ok.injEq] at h
    exact Or.inl ⟨rfl, h.symm⟩
  | some old =>
    rw [hg] at h
    dsimp only at h
    obtain ⟨d, h1, h2⟩ := (bind_ok_iff _ _ _).1 h
    rw [pure_ok, Except.ok.injEq] at h2
    exact Or.inr ⟨old, d, rfl, h1, h2.symm⟩

theorem putAll_keys (C : TplCtx) (base : Str) (qs : List (InSt × List Datum)) (ins ins' : Dict Str TInput) (srcs : Dict Str InSt)
    (h : putAll C base qs ins srcs = .ok ins') :
    Dict.keys ins' = Dict.keys ins ++ ((qs.map (fun q => q.1.name)).removeAll (Dict.keys ins)).eraseDups := by
  induction qs generalizing ins srcs with
  | nil =>
    rw [putAll, pure_ok, Except.ok.injEq] at h
    simp [h, List.removeAll]
  | cons q qs ih =>
    rw [putAll] at h
    obtain ⟨i1, h1, h⟩ := (bind_ok_iff _ _ _).1 h
    rw [ih _ _ h]
    rcases putTag_ok h1 with ⟨hg, rfl⟩ | ⟨old, data, hg, _, rfl⟩
    · have hk := (Dict.get?_eq_none_iff _ _).1 hg
      rw [Dict.set_of_not_mem _ _ _ hk]
      have e2 : Dict.keys (ins ++ [(q.1.name, inputOf q)]) = Dict.keys ins ++ [q.1.name] := by simp [Dict.keys]
      rw [e2, List.append_assoc]
      congr 1
      have : ((q :: qs).map (fun q => q.1.name)).removeAll (Dict.keys ins) = q.1.name :: (qs.map (fun q => q.1.name)).removeAll (Dict.keys ins) := by
        simp [List.removeAll, hk]
      rw [this, eraseDups_cons_removeAll, List.singleton_append]
      congr 2
      simp only [List.removeAll, List.filter_filter]
      apply List.filter_congr
      intro a _
      simp only [List.elem_eq_mem, List.mem_append, List.mem_singleton, Bool.decide_or, Bool.not_or, Bool.and_comm]
    · have hk : q.1.name ∈ Dict.keys ins := by
        apply Classical.byContradiction; intro e
        rw [(Dict.get?_eq_none_iff _ _).2 e] at hg; cases hg
      rw [Dict.keys_set_of_mem _ _ _ hk]
      congr 2
      simp [List.removeAll, hk]

/-- the tags of a name -/
def ofName (n : Str) (qs : List (InSt × List Datum)) : List (InSt × List Datum) := qs.filter (fun q => decide (q.1.name = n))

/-- the data of the urls of a tag are `again`, if they are read -/
def Again (C : TplCtx) (base : Str) (s : InSt) (later : List (InSt × List Datum)) (again : List Datum) : Prop :=
  (∃ q ∈ later, q.2 = []) → loadUrls C base s.extensions s.filters s.urls = .ok again

theorem again_ne {C : TplCtx} {base : Str} {s : InSt} {q : InSt × List Datum} {later : List (InSt × List Datum)} {again : List Datum}
    (h : q.2 ≠ []) (ha : Again C base s later again) : Again C base s (q :: later) again := by
  rintro ⟨r, hr, he⟩
  rcases List.mem_cons.1 hr with rfl | hr
  · exact absurd he h
  · exact ha ⟨r, hr, he⟩

theorem addedData_again {a b : List Datum} {acc : List Datum} {ds : List (List Datum)} (h : ∀ d ∈ ds, d ≠ []) :
    addedData a acc ds = addedData b acc ds := by
  induction ds generalizing acc with
  | nil => rfl
  | cons d ds ih =>
    rw [addedData, addedData, if_neg (h d (by simp)), if_neg (h d (by simp))]
    exact ih (fun e he => h e (by simp [he]))

/-- an input that is there -/
theorem putAll_old (C : TplCtx) (hE : C.eng.SetOrderOk) (base : Str) (n : Str) (qs : List (InSt × List Datum)) (ins ins' : Dict Str TInput)
    (srcs : Dict Str InSt) (h : putAll C base qs ins srcs = .ok ins') (i : TInput) (s : InSt) (hi : Dict.get? ins n = some i)
    (hs : Dict.get? srcs n = some s) :
    ∃ i' again, Dict.get? ins' n = some i' ∧ i'.functions = i.functions ∧ i'.parameters = i.parameters ∧
      (∀ g, g ∈ i'.groups ↔ g ∈ i.groups ∨ ∃ q ∈ ofName n qs, g ∈ q.1.groups) ∧
      Again C base s (ofName n qs) again ∧ i'.data = addedData again i.data ((ofName n qs).map (·.2)) := by
  induction qs generalizing ins srcs i with
  | nil =>
    rw [putAll, pure_ok, Except.ok.injEq] at h
    subst h
    exact ⟨i, [], hi, rfl, rfl, by simp [ofName], by simp [Again, ofName], rfl⟩
  | cons q qs ih =>
    rw [putAll] at h
    obtain ⟨i1, h1, h⟩ := (bind_ok_iff _ _ _).1 h
    by_cases hn : q.1.name = n
    · have ef : ofName n (q :: qs) = q :: ofName n qs := by unfold ofName; rw [List.filter_cons_of_pos (by simpa using hn)]
      rcases putTag_ok h1 with ⟨hg, _⟩ | ⟨old, data, hg, hm, rfl⟩
      · rw [hn, hi] at hg; cases hg
      · rw [hn] at hg hm h
        rw [hi] at hg
        cases hg
        rw [hs] at hm
        obtain ⟨i', again, a1, a2, a3, a4, a5, a6⟩ := ih _ (Dict.setdefault srcs n q.1) h
          { i with data := data, groups := C.eng.setOrder (i.groups ++ (inputOf q).groups) } (Dict.get?_set_self _ _ _)
          (by rw [Dict.get?_setdefault]; simp [hs])
        have hgr : ∀ g, g ∈ i'.groups ↔ g ∈ i.groups ∨ ∃ q' ∈ ofName n (q :: qs), g ∈ q'.1.groups := by
          intro g
          rw [a4 g, ef]
          dsimp only
          rw [(hE _).2 g, List.mem_append]
          simp only [List.mem_cons, exists_eq_or_imp, inputOf]
          constructor
          · rintro ((h | h) | h)
            · exact Or.inl h
            · exact Or.inr (Or.inl h)
            · exact Or.inr (Or.inr h)
          · rintro (h | h | h)
            · exact Or.inl (Or.inl h)
            · exact Or.inl (Or.inr h)
            · exact Or.inr h
        unfold mergeData at hm
        by_cases hz : q.2 = []
        · rw [if_pos (show (inputOf q).data = [] from hz)] at hm
          obtain ⟨ds, hm1, hm2⟩ := (bind_ok_iff _ _ _).1 hm
          rw [pure_ok, Except.ok.injEq] at hm2
          have hm1 : loadUrls C base s.extensions s.filters s.urls = .ok ds := hm1
          refine ⟨i', ds, a1, a2, a3, hgr, fun _ => hm1, ?_⟩
          rw [ef, List.map_cons, addedData, if_pos hz, a6, ← hm2]
          by_cases hl : ∃ r ∈ ofName n qs, r.2 = []
          · have := a5 hl
            rw [hm1, Except.ok.injEq] at this
            rw [this]
          · exact addedData_again (by
              intro d hd e
              obtain ⟨r, hr, rfl⟩ := List.mem_map.1 hd
              exact hl ⟨r, hr, e⟩)
        · rw [if_neg (show ¬ (inputOf q).data = [] from hz)] at hm
          rw [pure_ok, Except.ok.injEq] at hm
          refine ⟨i', again, a1, a2, a3, hgr, by rw [ef]; exact again_ne hz a5, ?_⟩
          rw [ef, List.map_cons, addedData, if_neg hz, a6, ← hm]
          rfl
    · have ef : ofName n (q :: qs) = ofName n qs := by unfold ofName; rw [List.filter_cons_of_neg (by simpa using hn)]
      rw [ef]
      have hg1 : Dict.get? i1 n = some i := by
        rcases putTag_ok h1 with ⟨_, rfl⟩ | ⟨old, data, _, _, rfl⟩
        · rw [Dict.get?_set_ne _ _ hn]; exact hi
        · rw [Dict.get?_set_ne _ _ hn]; exact hi
      exact ih _ _ h _ hg1 (by rw [Dict.get?_setdefault]; simp [hn, hs])

/-- an input that is not there -/
theorem putAll_new (C : TplCtx) (hE : C.eng.SetOrderOk) (base : Str) (n : Str) (qs : List (InSt × List Datum)) (ins ins' : Dict Str TInput)
    (srcs : Dict Str InSt) (h : putAll C base qs ins srcs = .ok ins') (hi : Dict.get? ins n = none) (hs : Dict.get? srcs n = none)
    (q : InSt × List Datum) (rest : List (InSt × List Datum)) (hq : ofName n qs = q :: rest) :
    ∃ i' again, Dict.get? ins' n = some i' ∧ i'.functions = q.1.functions ∧ i'.parameters = q.1.parameters ∧
      (∀ g, g ∈ i'.groups ↔ ∃ r ∈ q :: rest, g ∈ r.1.groups) ∧
      Again C base q.1 rest again ∧ i'.data = addedData again q.2 (rest.map (·.2)) := by
  induction qs generalizing ins srcs with
  | nil => cases hq
  | cons p qs ih =>
    rw [putAll] at h
    obtain ⟨i1, h1, h⟩ := (bind_ok_iff _ _ _).1 h
    by_cases hn : p.1.name = n
    · have ef : ofName n (p :: qs) = p :: ofName n qs := by unfold ofName; rw [List.filter_cons_of_pos (by simpa using hn)]
      rw [ef] at hq
      cases hq
      rcases putTag_ok h1 with ⟨hg, rfl⟩ | ⟨old, data, hg, hm, rfl⟩
      · obtain ⟨i', again, a1, a2, a3, a4, a5, a6⟩ := putAll_old C hE base n qs _ _ _ h (inputOf q) q.1
          (by rw [hn]; exact Dict.get?_set_self _ _ _) (by rw [Dict.get?_setdefault]; simp [hn, hs])
        refine ⟨i', again, a1, a2, a3, ?_, a5, a6⟩
        intro g
        rw [a4 g]
        simp only [List.mem_cons, exists_eq_or_imp, inputOf]
      · rw [hn, hi] at hg; cases hg
    · have ef : ofName n (p :: qs) = ofName n qs := by unfold ofName; rw [List.filter_cons_of_neg (by simpa using hn)]
      rw [ef] at hq
      have hg1 : Dict.get? i1 n = none := by
        rcases putTag_ok h1 with ⟨_, rfl⟩ | ⟨old, data, _, _, rfl⟩
        · rw [Dict.get?_set_ne _ _ hn]; exact hi
        · rw [Dict.get?_set_ne _ _ hn]; exact hi
      exact ih _ _ h hg1 (by rw [Dict.get?_setdefault]; simp [hn, hs]) hq

/-! ### one tag -/

theorem sorted_same : ∀ {a b : List Nat}, a.Pairwise (· < ·) → b.Pairwise (· < ·) → (∀ i, i ∈ a ↔ i ∈ b) → a = b
  | [], [], _, _, _ => rfl
  | [], y :: b, _, _, h => absurd ((h y).2 (by simp)) (by simp)
  | x :: a, [], _, _, h => absurd ((h x).1 (by simp)) (by simp)
  | x :: a, y :: b, ha, hb, h => by
    rw [List.pairwise_cons] at ha hb
    have hxy : x = y := by
      have h1 := (h x).1 (by simp)
      have h2 := (h y).2 (by simp)
      rcases List.mem_cons.1 h1 with e | h1
      · exact e
      · rcases List.mem_cons.1 h2 with e | h2
        · exact e.symm
        · have := hb.1 x h1; have := ha.1 y h2; omega
    subst hxy
    congr 1
    refine sorted_same ha.2 hb.2 (fun i => ?_)
    constructor
    · intro hi
      rcases List.mem_cons.1 ((h i).1 (by simp [hi])) with e | h1
      · subst e; exact absurd (ha.1 i hi) (by omega)
      · exact h1
    · intro hi
      rcases List.mem_cons.1 ((h i).2 (by simp [hi])) with e | h1
      · subst e; exact absurd (hb.1 i hi) (by omega)
      · exact h1

theorem groupsOf_iff (gs : List TopGroup) (n : Str) (names : List Str) (l : List Nat) : GroupsOf gs n names l ↔ l = inputGroups gs n names := by
  constructor
  · rintro ⟨h1, h2⟩
    exact sorted_same h1 (inputGroups_lt _ _ _) (fun i => by rw [h2 i, mem_inputGroups]; rfl)
  · rintro rfl
    exact ⟨inputGroups_lt _ _ _, fun i => by rw [mem_inputGroups]; rfl⟩

theorem exists_groups (x : Xml) : ∃ kv ∈ inTagAttrs x, lower kv.1 = c!"groups" := by
  unfold inTagAttrs
  by_cases h : Dict.get? x.attrib c!"groups" = none
  · exact ⟨(c!"groups", .list [.str c!"all"]), by simp [h], by rfl⟩
  · cases hg : Dict.get? x.attrib c!"groups" with
    | none => exact absurd hg h
    | some g =>
      refine ⟨(c!"groups", .str g), ?_, by rfl⟩
      have := Dict.mem_of_get? _ _ _ hg
      exact List.mem_append_left _ (List.mem_map.2 ⟨_, this, rfl⟩)

theorem groupsFrom_iff (gs : List TopGroup) (seq : List (Str × Val)) (name0 : Str) (l : List Nat) (h : ∃ kv ∈ seq, lower kv.1 = c!"groups") :
    GroupsFrom gs seq name0 [] l ↔ GroupsIs gs seq name0 l := by
  unfold GroupsFrom GroupsIs
  constructor
  · rintro ⟨h1, ⟨h2, _⟩ | ⟨b, kv, a, names, n, e, hk, ha, hn, hl, hg⟩⟩
    · obtain ⟨kv, hm, hk⟩ := h; exact absurd hk (h2 kv hm)
    · exact ⟨h1, b, kv, a, names, n, e, hk, ha, hn, hl, (groupsOf_iff _ _ _ _).2 hg⟩
  · rintro ⟨h1, b, kv, a, names, n, e, hk, ha, hn, hl, hg⟩
    exact ⟨h1, Or.inr ⟨b, kv, a, names, n, e, hk, ha, hn, hl, (groupsOf_iff _ _ _ _).1 hg⟩⟩

theorem order_groups {x : Xml} {d : Dict Key Val} {seq : List (Str × Val)} (h : InOrder x d seq) : ∃ kv ∈ seq, lower kv.1 = c!"groups" := by
  obtain ⟨b, a, v, e1, e2⟩ := h
  obtain ⟨kv, hm, hk⟩ := exists_groups x
  refine ⟨kv, ?_, hk⟩
  rw [e1] at hm
  rw [e2]
  simp only [List.mem_append, List.mem_cons] at hm ⊢
  rcases hm with h | h | h
  · exact Or.inl h
  · exact Or.inr (Or.inl h)
  · exact Or.inr (Or.inr (Or.inr h))

theorem noLoad_of {C : TplCtx} {x : Xml} (h : LoadPlain C x) : ∀ d, InText C x d → NoLoad (d.filterMap strEntry) := by
  intro d hd kv hm
  obtain ⟨q, hq, he⟩ := List.mem_filterMap.1 hm
  obtain ⟨k, v⟩ := q
  cases k with
  | s k =>
    have : (k, v) = kv := by simpa [strEntry] using he
    subst this
    exact h.text d hd k v hq
  | i k => simp [strEntry] at he

/-- what the state of an input tag is -/
theorem inState_iff (C : TplCtx) (gs : List TopGroup) (x : Xml) (h : LoadPlain C x) (s : InSt) :
    inState C gs x = .ok s ↔ ∃ d seq, InText C x d ∧ InOrder x d seq ∧ s.parameters = .dict d ∧
      InputOf C gs seq (strip ((Dict.get? x.attrib c!"name").getD c!"Default_Input")) s.load s.urls s.extensions s.filters s.name s.groups s.functions := by
  unfold inState
  rw [inTagAttrs_eq, show inputFuel = 998 + 2 from rfl, inAttrs_iff C gs x h.once h.attrs (noLoad_of h) 998 _ s rfl]
  constructor
  · rintro ⟨d, seq, h1, h2, m⟩
    refine ⟨d, seq, h1, h2, m.parameters, ⟨m.load, m.urls, m.exts, m.filters, m.name, (groupsFrom_iff _ _ _ _ (order_groups h2)).1 m.groups, ?_⟩⟩
    obtain ⟨fss, f1, f2⟩ := m.functions
    exact ⟨fss, f1, by simpa using f2⟩
  · rintro ⟨d, seq, h1, h2, hp, m⟩
    refine ⟨d, seq, h1, h2, ⟨m.load, m.urls, m.exts, m.filters, m.name, (groupsFrom_iff _ _ _ _ (order_groups h2)).2 m.groups, ?_, hp⟩⟩
    obtain ⟨fss, f1, f2⟩ := m.functions
    exact ⟨fss, f1, by simpa using f2⟩

/-- the data of an input tag -/
theorem loadInput_data {C : TplCtx} {gs : List TopGroup} {base : Str} {x : Xml} {s : InSt} {r : Str × TInput} (hs : inState C gs x = .ok s)
    (h : loadInput C gs base x = .ok r) :
    (s.load = c!"text" ∧ ∃ t, x.text = some t ∧ t ≠ [] ∧ r.2.data = [⟨.text, .str t⟩]) ∨
      (¬ (s.load = c!"text" ∧ x.text.getD [] ≠ []) ∧ loadUrls C base s.extensions s.filters s.urls = .ok r.2.data) := by
  obtain ⟨s2, d, h1, rfl, h3⟩ := loadInput_split h
  rw [hs, Except.ok.injEq] at h1
  subst h1
  exact h3

/-- the record of a tag -/
def recOf (q : InSt × List Datum) (d : Dict Key Val) : InRec :=
  ⟨q.1.name, q.1.load, q.1.urls, q.1.extensions, q.1.filters, q.2, q.1.groups, q.1.functions, d⟩

theorem readAs_tag {C : TplCtx} {gs : List TopGroup} {base : Str} {x : Xml} {q : InSt × List Datum} (hx : LoadPlain C x) (h : ReadAs C gs base x q) :
    ∃ r : InRec, InputTag C gs base x r ∧ q.1.parameters = .dict r.params ∧ r = recOf q r.params := by
  obtain ⟨d, seq, h1, h2, h3, h4⟩ := (inState_iff C gs x hx q.1).1 h.1
  refine ⟨recOf q d, ⟨⟨seq, h1, h2, h4⟩, ?_⟩, h3, rfl⟩
  rcases loadInput_data h.1 h.2 with ⟨a, t, b, c, e⟩ | ⟨a, b⟩
  · exact Or.inl ⟨a, t, b, c, e⟩
  · refine Or.inr ⟨a, ?_⟩
    exact Props.loadUrls_data C base _ _ _ _ b

theorem readAs_tags {C : TplCtx} {gs : List TopGroup} {base : Str} {xs : List Xml} {qs : List (InSt × List Datum)} (hx : ∀ x ∈ xs, LoadPlain C x)
    (h : All2 (ReadAs C gs base) xs qs) : ∃ rs : List InRec, All2 (InputTag C gs base) xs rs ∧
      All2 (fun q r => q.1.parameters = .dict r.params ∧ r = recOf q r.params) qs rs := by
  induction h with
  | nil => exact ⟨[], .nil, .nil⟩
  | cons h1 _ ih =>
    obtain ⟨r, a, b, c⟩ := readAs_tag (hx _ (by simp)) h1
    obtain ⟨rs, d, e⟩ := ih (fun x hm => hx x (by simp [hm]))
    exact ⟨r :: rs, .cons a d, .cons ⟨b, c⟩ e⟩

end TTP
