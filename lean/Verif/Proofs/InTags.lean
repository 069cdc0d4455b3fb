import Verif.Proofs.Urls
import Verif.Proofs.Outputs2
import Verif.Spec.InTags
/-!
# Lemmas for C144, C145
-/

namespace TTP
open Py Spec

/-! ## Last attribute -/

theorem lastIs_nil {α : Type} (key : Str) (R : Val → α → Prop) (d r : α) : LastIs [] key R d r ↔ r = d := by
  unfold LastIs
  simp

theorem lastIs_pos {α : Type} {kv : Str × Val} {seq : List (Str × Val)} {key : Str} {R : Val → α → Prop} {d r : α} (h : lower kv.1 = key) :
    LastIs (kv :: seq) key R d r ↔ ∃ a, R kv.2 a ∧ LastIs seq key R a r := by
  unfold LastIs
  rw [List.filter_cons_of_pos (by simp [h]), List.getLast?_cons]
  dsimp only
  constructor
  · rintro ⟨h1, h2⟩
    cases hl : (seq.filter (fun kv => decide (lower kv.1 = key))).getLast? with
    | none =>
      rw [hl] at h2
      exact ⟨r, h2, fun q hq => h1 q (by simp [hq]), rfl⟩
    | some q =>
      rw [hl] at h2
      obtain ⟨a, ha⟩ := h1 kv (by simp) h
      exact ⟨a, ha, fun q hq => h1 q (by simp [hq]), h2⟩
  · rintro ⟨a, ha, h1, h2⟩
    refine ⟨?_, ?_⟩
    · intro q hq hk
      rcases List.mem_cons.1 hq with rfl | hq
      · exact ⟨a, ha⟩
      · exact h1 q hq hk
    · cases hl : (seq.filter (fun kv => decide (lower kv.1 = key))).getLast? with
      | none => rw [hl] at h2; subst h2; exact ha
      | some q => rw [hl] at h2; exact h2

theorem lastIs_neg {α : Type} {kv : Str × Val} {seq : List (Str × Val)} {key : Str} {R : Val → α → Prop} {d r : α} (h : lower kv.1 ≠ key) :
    LastIs (kv :: seq) key R d r ↔ LastIs seq key R d r := by
  unfold LastIs
  rw [List.filter_cons_of_neg (by simp [h])]
  constructor
  · rintro ⟨h1, h2⟩; exact ⟨fun q hq => h1 q (by simp [hq]), h2⟩
  · rintro ⟨h1, h2⟩
    refine ⟨?_, h2⟩
    intro q hq hk
    rcases List.mem_cons.1 hq with rfl | hq
    · exact absurd hk h
    · exact h1 q hq hk

/-! ## Groups -/

/-- groups with those that were there before -/
def GroupsFrom (gs : List TopGroup) (seq : List (Str × Val)) (name0 : Str) (g0 l : List Nat) : Prop :=
  (∀ kv ∈ seq, lower kv.1 = c!"groups" → ∃ a, NamesOf kv.2 a) ∧
    (((∀ kv ∈ seq, lower kv.1 ≠ c!"groups") ∧ l = g0) ∨
    ∃ before kv after names n, seq = before ++ kv :: after ∧ lower kv.1 = c!"groups" ∧ (∀ q ∈ after, lower q.1 ≠ c!"groups") ∧ NamesOf kv.2 names ∧
      LastIs before c!"name" Stripped name0 n ∧ l = inputGroups gs n names)

theorem groupsFrom_nil (gs : List TopGroup) (name0 : Str) (g0 l : List Nat) : GroupsFrom gs [] name0 g0 l ↔ l = g0 := by
  unfold GroupsFrom
  constructor
  · rintro ⟨_, ⟨_, h⟩ | ⟨b, kv, a, _, _, h, _⟩⟩
    · exact h
    · simp at h
  · rintro rfl; exact ⟨by simp, Or.inl ⟨by simp, rfl⟩⟩

theorem groupsFrom_pos {gs : List TopGroup} {kv : Str × Val} {seq : List (Str × Val)} {name0 : Str} {g0 l : List Nat} (h : lower kv.1 = c!"groups") :
    GroupsFrom gs (kv :: seq) name0 g0 l ↔ ∃ names, NamesOf kv.2 names ∧ GroupsFrom gs seq name0 (inputGroups gs name0 names) l := by
  have hnm : lower kv.1 ≠ c!"name" := by rw [h]; decide
  unfold GroupsFrom
  constructor
  · rintro ⟨h1, ⟨h2, _⟩ | ⟨b, q, a, names, n, e, hq, ha, hn, hl, hg⟩⟩
    · exact absurd h (h2 kv (by simp))
    · cases b with
      | nil =>
        simp only [List.nil_append, List.cons.injEq] at e
        obtain ⟨rfl, rfl⟩ := e
        refine ⟨names, hn, fun q hq => h1 q (by simp [hq]), Or.inl ⟨ha, ?_⟩⟩
        rw [lastIs_nil] at hl
        rw [hg, hl]
      | cons p b =>
        simp only [List.cons_append, List.cons.injEq] at e
        obtain ⟨rfl, rfl⟩ := e
        obtain ⟨ns, hns⟩ := h1 kv (by simp) h
        exact ⟨ns, hns, fun q hq => h1 q (List.mem_cons_of_mem _ hq), Or.inr ⟨b, q, a, names, n, rfl, hq, ha, hn, (lastIs_neg hnm).1 hl, hg⟩⟩
  · rintro ⟨ns, hns, h1, h2⟩
    refine ⟨?_, Or.inr ?_⟩
    · intro q hq hk
      rcases List.mem_cons.1 hq with rfl | hq
      · exact ⟨ns, hns⟩
      · exact h1 q hq hk
    · rcases h2 with ⟨h2, rfl⟩ | ⟨b, q, a, names, n, rfl, hq, ha, hn, hl, hg⟩
      · exact ⟨[], kv, seq, ns, name0, rfl, h, h2, hns, (lastIs_nil _ _ _ _).2 rfl, rfl⟩
      · exact ⟨kv :: b, q, a, names, n, rfl, hq, ha, hn, (lastIs_neg hnm).2 hl, hg⟩

theorem groupsFrom_name {gs : List TopGroup} {kv : Str × Val} {seq : List (Str × Val)} {name0 : Str} {g0 l : List Nat} (h : lower kv.1 = c!"name") :
    GroupsFrom gs (kv :: seq) name0 g0 l → ∀ n, Stripped kv.2 n → GroupsFrom gs seq n g0 l := by
  have hne : lower kv.1 ≠ c!"groups" := by rw [h]; decide
  unfold GroupsFrom
  rintro ⟨h1, h2⟩ m hm
  refine ⟨fun q hq => h1 q (by simp [hq]), ?_⟩
  rcases h2 with ⟨h2, rfl⟩ | ⟨b, q, a, names, n, e, hq, ha, hn, hl, hg⟩
  · exact Or.inl ⟨fun q hq => h2 q (by simp [hq]), rfl⟩
  · cases b with
    | nil =>
      simp only [List.nil_append, List.cons.injEq] at e
      obtain ⟨rfl, rfl⟩ := e
      exact absurd hq hne
    | cons p b =>
      simp only [List.cons_append, List.cons.injEq] at e
      obtain ⟨rfl, rfl⟩ := e
      obtain ⟨a', ha', hl⟩ := (lastIs_pos h).1 hl
      have : a' = m := by
        obtain ⟨s, e, rfl⟩ := ha'
        obtain ⟨s', e', rfl⟩ := hm
        rw [e] at e'; cases e'; rfl
      subst this
      exact Or.inr ⟨b, q, a, names, n, rfl, hq, ha, hn, hl, hg⟩

theorem groupsFrom_name' {gs : List TopGroup} {kv : Str × Val} {seq : List (Str × Val)} {name0 n : Str} {g0 l : List Nat} (h : lower kv.1 = c!"name")
    (hn : Stripped kv.2 n) (hg : GroupsFrom gs seq n g0 l) : GroupsFrom gs (kv :: seq) name0 g0 l := by
  have hne : lower kv.1 ≠ c!"groups" := by rw [h]; decide
  unfold GroupsFrom at hg ⊢
  obtain ⟨h1, h2⟩ := hg
  refine ⟨?_, ?_⟩
  · intro q hq hk
    rcases List.mem_cons.1 hq with rfl | hq
    · exact absurd hk hne
    · exact h1 q hq hk
  · rcases h2 with ⟨h2, rfl⟩ | ⟨b, q, a, names, m, rfl, hq, ha, hns, hl, hg⟩
    · refine Or.inl ⟨?_, rfl⟩
      intro q hq
      rcases List.mem_cons.1 hq with rfl | hq
      · exact hne
      · exact h2 q hq
    · exact Or.inr ⟨kv :: b, q, a, names, m, rfl, hq, ha, hns, (lastIs_pos h).2 ⟨n, hn, hl⟩, hg⟩

theorem groupsFrom_neg {gs : List TopGroup} {kv : Str × Val} {seq : List (Str × Val)} {name0 : Str} {g0 l : List Nat} (hne : lower kv.1 ≠ c!"groups")
    (h : lower kv.1 ≠ c!"name") : GroupsFrom gs (kv :: seq) name0 g0 l ↔ GroupsFrom gs seq name0 g0 l := by
  unfold GroupsFrom
  constructor
  · rintro ⟨h1, h2⟩
    refine ⟨fun q hq => h1 q (by simp [hq]), ?_⟩
    rcases h2 with ⟨h2, rfl⟩ | ⟨b, q, a, names, n, e, hq, ha, hn, hl, hg⟩
    · exact Or.inl ⟨fun q hq => h2 q (by simp [hq]), rfl⟩
    · cases b with
      | nil =>
        simp only [List.nil_append, List.cons.injEq] at e
        obtain ⟨rfl, rfl⟩ := e
        exact absurd hq hne
      | cons p b =>
        simp only [List.cons_append, List.cons.injEq] at e
        obtain ⟨rfl, rfl⟩ := e
        exact Or.inr ⟨b, q, a, names, n, rfl, hq, ha, hn, (lastIs_neg h).1 hl, hg⟩
  · rintro ⟨h1, h2⟩
    refine ⟨?_, ?_⟩
    · intro q hq hk
      rcases List.mem_cons.1 hq with rfl | hq
      · exact absurd hk hne
      · exact h1 q hq hk
    · rcases h2 with ⟨h2, rfl⟩ | ⟨b, q, a, names, m, rfl, hq, ha, hns, hl, hg⟩
      · refine Or.inl ⟨?_, rfl⟩
        intro q hq
        rcases List.mem_cons.1 hq with rfl | hq
        · exact hne
        · exact h2 q hq
      · exact Or.inr ⟨kv :: b, q, a, names, m, rfl, hq, ha, hns, (lastIs_neg h).2 hl, hg⟩

/-! ## Functions -/

/-- the functions of the attributes are appended -/
def FuncsFrom (C : TplCtx) (seq : List (Str × Val)) (f0 fs : List FnCall) : Prop := ∃ fss, All2 (InCalls C) seq fss ∧ fs = f0 ++ fss.flatten

theorem funcsFrom_nil (C : TplCtx) (f0 fs : List FnCall) : FuncsFrom C [] f0 fs ↔ fs = f0 := by
  unfold FuncsFrom
  constructor
  · rintro ⟨fss, h, e⟩; cases h; simpa using e
  · rintro rfl; exact ⟨[], .nil, by simp⟩

theorem funcsFrom_cons (C : TplCtx) (kv : Str × Val) (seq : List (Str × Val)) (f0 fs : List FnCall) :
    FuncsFrom C (kv :: seq) f0 fs ↔ ∃ g, InCalls C kv g ∧ FuncsFrom C seq (f0 ++ g) fs := by
  unfold FuncsFrom
  constructor
  · rintro ⟨fss, h, e⟩
    cases h with
    | cons h1 h2 => exact ⟨_, h1, _, h2, by rw [e]; simp⟩
  · rintro ⟨g, h1, fss, h2, e⟩
    exact ⟨g :: fss, .cons h1 h2, by rw [e]; simp⟩

theorem inFunctions_iff (C : TplCtx) (fs f0 r : List FnCall) : inFunctions C fs f0 = .ok r ↔
    (∀ f ∈ fs, f.name ≠ c!"functions") ∧ r = f0 ++ fs.filter (fun f => decide (f.name = c!"extract_commands") || C.isInFn f.name) := by
  induction fs generalizing f0 with
  | nil =>
    simp only [inFunctions, pure_ok, Except.ok.injEq]
    constructor
    · rintro rfl; simp
    · rintro ⟨_, rfl⟩; simp
  | cons f fs ih =>
    rw [inFunctions]
    by_cases h1 : f.name = c!"functions"
    · rw [if_pos h1]
      constructor
      · intro h; cases h
      · rintro ⟨h, _⟩; exact absurd h1 (h f (by simp))
    · rw [if_neg h1]
      by_cases h2 : (decide (f.name = c!"extract_commands") || C.isInFn f.name) = true
      · rw [if_pos (by simpa using h2), ih, List.filter_cons_of_pos (by exact h2)]
        constructor
        · rintro ⟨a, rfl⟩
          refine ⟨?_, by simp⟩
          intro q hq
          rcases List.mem_cons.1 hq with rfl | hq
          · exact h1
          · exact a q hq
        · rintro ⟨a, rfl⟩
          exact ⟨fun q hq => a q (by simp [hq]), by simp⟩
      · rw [if_neg (by simpa using h2), ih, List.filter_cons_of_neg (by exact h2)]
        constructor
        · rintro ⟨a, rfl⟩
          refine ⟨?_, rfl⟩
          intro q hq
          rcases List.mem_cons.1 hq with rfl | hq
          · exact h1
          · exact a q hq
        · rintro ⟨a, rfl⟩
          exact ⟨fun q hq => a q (by simp [hq]), rfl⟩

/-! ## Values -/

theorem asText_iff (v : Val) (s : Str) : asText v = .ok s ↔ v = .str s := by
  cases v <;> simp [asText, pure_ok, throw_err]

theorem mapM_texts (xs : List Val) (l : List Str) : textList (.list xs) = .ok l ↔ xs = l.map .str := by
  unfold textList
  dsimp only
  induction xs generalizing l with
  | nil =>
    simp only [List.mapM_nil, pure_ok, Except.ok.injEq]
    constructor
    · rintro rfl; rfl
    · intro h; cases l with
      | nil => rfl
      | cons a l => simp at h
  | cons v xs ih =>
    rw [List.mapM_cons]
    constructor
    · intro h
      obtain ⟨s, h1, h⟩ := (bind_ok_iff _ _ _).1 h
      obtain ⟨l', h2, h⟩ := (bind_ok_iff _ _ _).1 h
      simp only [pure_ok, Except.ok.injEq] at h
      subst h
      rw [(ih l').1 h2]
      cases v <;> simp [pure_ok, throw_err] at h1
      rw [h1]; rfl
    · intro h
      cases l with
      | nil => simp at h
      | cons a l =>
        simp only [List.map_cons, List.cons.injEq] at h
        obtain ⟨rfl, h⟩ := h
        have := (ih l).2 h
        dsimp only
        rw [this]; rfl

theorem textList_iff (v : Val) (l : List Str) : textList v = .ok l ↔ TextsOf v l := by
  constructor
  · intro h
    unfold textList at h
    split at h
    · simp only [pure_ok, Except.ok.injEq] at h; subst h; exact .one _
    · rw [(mapM_texts _ _).1 h]; exact .many l
    · cases h
  · intro h; cases h with
    | one s => rfl
    | many => exact (mapM_texts _ _).2 rfl

theorem inNames_iff (v : Val) (l : List Str) : groupNames v = .ok l ↔ NamesOf v l := by
  constructor
  · intro h
    unfold groupNames at h
    split at h
    · simp only [pure_ok, Except.ok.injEq] at h; subst h; exact .text _
    · simp only [pure_ok, Except.ok.injEq] at h; subst h; exact .list _
    · cases h
  · intro h; cases h <;> rfl

theorem oneCall_iff (C : LoadCtx) (n : Str) (v : Val) (f : FnCall) : oneCall C n v = .ok f ↔
    ∃ fs, getAttributes C (n ++ c!"(" ++ pyStr v ++ c!")") = .ok (f :: fs) := by
  have e : n ++ c!"(" ++ pyStr v ++ c!")" = n ++ '(' :: (pyStr v ++ [')']) := by simp
  rw [e]
  unfold oneCall
  constructor
  · intro h
    obtain ⟨fs, h1, h⟩ := (bind_ok_iff _ _ _).1 h
    cases fs with
    | nil => cases h
    | cons g fs =>
      simp only [pure_ok, Except.ok.injEq] at h
      subst h
      exact ⟨fs, h1⟩
  · rintro ⟨fs, h⟩
    rw [h]; rfl

theorem inCalls_option {C : TplCtx} {kv : Str × Val} {g : List FnCall} (h : lower kv.1 ∈ inOptions) (hg : InCalls C kv g) : g = [] := by
  cases hg with
  | pipe hk => simp only at h; rw [hk] at h; exact absurd h (by decide)
  | commands hk => simp only at h; rw [hk] at h; exact absurd h (by decide)
  | noText => rfl
  | own hk => exact absurd h hk
  | option => rfl
  | other => rfl

/-! ## Attributes one after the other -/

/-- attributes without `load` do not depend on the text -/
def NoLoad (attrs : Dict Str Val) : Prop := ∀ kv ∈ attrs, lower kv.1 ≠ c!"load"

/-- what attributes make of the state of an input -/
structure Makes (C : TplCtx) (gs : List TopGroup) (seq : List (Str × Val)) (s s' : InSt) : Prop where
  load : LastIs seq c!"load" Stripped s.load s'.load
  urls : LastIs seq c!"url" TextsOf s.urls s'.urls
  exts : LastIs seq c!"extensions" TextsOf s.extensions s'.extensions
  filters : LastIs seq c!"filters" TextsOf s.filters s'.filters
  name : LastIs seq c!"name" Stripped s.name s'.name
  groups : GroupsFrom gs seq s.name s.groups s'.groups
  functions : FuncsFrom C seq s.functions s'.functions
  parameters : s'.parameters = s.parameters

theorem makes_nil (C : TplCtx) (gs : List TopGroup) (s s' : InSt) : Makes C gs [] s s' ↔ s' = s := by
  constructor
  · intro h
    obtain ⟨h1, h2, h3, h4, h5, h6, h7, h8⟩ := h
    rw [lastIs_nil] at h1 h2 h3 h4 h5
    rw [groupsFrom_nil] at h6
    rw [funcsFrom_nil] at h7
    cases s; cases s'
    simp only at *
    subst h1 h2 h3 h4 h5 h6 h7 h8
    rfl
  · rintro rfl
    exact ⟨(lastIs_nil _ _ _ _).2 rfl, (lastIs_nil _ _ _ _).2 rfl, (lastIs_nil _ _ _ _).2 rfl, (lastIs_nil _ _ _ _).2 rfl,
      (lastIs_nil _ _ _ _).2 rfl, (groupsFrom_nil _ _ _ _).2 rfl, (funcsFrom_nil _ _ _).2 rfl, rfl⟩

theorem makes_name {C : TplCtx} {gs : List TopGroup} {kv : Str × Val} {seq : List (Str × Val)} {s s' : InSt} (h : lower kv.1 = c!"name") :
    Makes C gs (kv :: seq) s s' ↔ ∃ n, Stripped kv.2 n ∧ Makes C gs seq { s with name := n } s' := by
  obtain ⟨k, v⟩ := kv
  simp only at h
  constructor
  · rintro ⟨h1, h2, h3, h4, h5, h6, h7, h8⟩
    obtain ⟨n, hn, h5⟩ := (lastIs_pos h).1 h5
    obtain ⟨g, hg, h7⟩ := (funcsFrom_cons _ _ _ _ _).1 h7
    have : g = [] := inCalls_option (by rw [h]; decide) hg
    subst this
    refine ⟨n, hn, (lastIs_neg (by rw [h]; decide)).1 h1, (lastIs_neg (by rw [h]; decide)).1 h2, (lastIs_neg (by rw [h]; decide)).1 h3,
      (lastIs_neg (by rw [h]; decide)).1 h4, h5, groupsFrom_name h h6 n hn, by simpa using h7, h8⟩
  · rintro ⟨n, hn, h1, h2, h3, h4, h5, h6, h7, h8⟩
    exact ⟨(lastIs_neg (by rw [h]; decide)).2 h1, (lastIs_neg (by rw [h]; decide)).2 h2, (lastIs_neg (by rw [h]; decide)).2 h3,
      (lastIs_neg (by rw [h]; decide)).2 h4, (lastIs_pos h).2 ⟨n, hn, h5⟩, groupsFrom_name' h hn h6,
      (funcsFrom_cons _ _ _ _ _).2 ⟨[], .option (by rw [h]; decide), by simpa using h7⟩, h8⟩

theorem makes_groups {C : TplCtx} {gs : List TopGroup} {kv : Str × Val} {seq : List (Str × Val)} {s s' : InSt} (h : lower kv.1 = c!"groups") :
    Makes C gs (kv :: seq) s s' ↔ ∃ ns, NamesOf kv.2 ns ∧ Makes C gs seq { s with groups := inputGroups gs s.name ns } s' := by
  obtain ⟨k, v⟩ := kv
  simp only at h
  constructor
  · rintro ⟨h1, h2, h3, h4, h5, h6, h7, h8⟩
    obtain ⟨n, hn, h6⟩ := (groupsFrom_pos h).1 h6
    obtain ⟨g, hg, h7⟩ := (funcsFrom_cons _ _ _ _ _).1 h7
    have : g = [] := inCalls_option (by rw [h]; decide) hg
    subst this
    refine ⟨n, hn, (lastIs_neg (by rw [h]; decide)).1 h1, (lastIs_neg (by rw [h]; decide)).1 h2, (lastIs_neg (by rw [h]; decide)).1 h3,
      (lastIs_neg (by rw [h]; decide)).1 h4, (lastIs_neg (by rw [h]; decide)).1 h5, h6, by simpa using h7, h8⟩
  · rintro ⟨n, hn, h1, h2, h3, h4, h5, h6, h7, h8⟩
    exact ⟨(lastIs_neg (by rw [h]; decide)).2 h1, (lastIs_neg (by rw [h]; decide)).2 h2, (lastIs_neg (by rw [h]; decide)).2 h3,
      (lastIs_neg (by rw [h]; decide)).2 h4, (lastIs_neg (by rw [h]; decide)).2 h5, (groupsFrom_pos h).2 ⟨n, hn, h6⟩,
      (funcsFrom_cons _ _ _ _ _).2 ⟨[], .option (by rw [h]; decide), by simpa using h7⟩, h8⟩

theorem makes_load {C : TplCtx} {gs : List TopGroup} {kv : Str × Val} {seq : List (Str × Val)} {s s' : InSt} (h : lower kv.1 = c!"load") :
    Makes C gs (kv :: seq) s s' ↔ ∃ n, Stripped kv.2 n ∧ Makes C gs seq { s with load := n } s' := by
  obtain ⟨k, v⟩ := kv
  simp only at h
  constructor
  · rintro ⟨h1, h2, h3, h4, h5, h6, h7, h8⟩
    obtain ⟨n, hn, h1⟩ := (lastIs_pos h).1 h1
    obtain ⟨g, hg, h7⟩ := (funcsFrom_cons _ _ _ _ _).1 h7
    have : g = [] := inCalls_option (by rw [h]; decide) hg
    subst this
    refine ⟨n, hn, h1, (lastIs_neg (by rw [h]; decide)).1 h2, (lastIs_neg (by rw [h]; decide)).1 h3,
      (lastIs_neg (by rw [h]; decide)).1 h4, (lastIs_neg (by rw [h]; decide)).1 h5,
      (groupsFrom_neg (by rw [h]; decide) (by rw [h]; decide)).1 h6, by simpa using h7, h8⟩
  · rintro ⟨n, hn, h1, h2, h3, h4, h5, h6, h7, h8⟩
    exact ⟨(lastIs_pos h).2 ⟨n, hn, h1⟩, (lastIs_neg (by rw [h]; decide)).2 h2, (lastIs_neg (by rw [h]; decide)).2 h3,
      (lastIs_neg (by rw [h]; decide)).2 h4, (lastIs_neg (by rw [h]; decide)).2 h5, (groupsFrom_neg (by rw [h]; decide) (by rw [h]; decide)).2 h6,
      (funcsFrom_cons _ _ _ _ _).2 ⟨[], .option (by rw [h]; decide), by simpa using h7⟩, h8⟩

theorem makes_url {C : TplCtx} {gs : List TopGroup} {kv : Str × Val} {seq : List (Str × Val)} {s s' : InSt} (h : lower kv.1 = c!"url") :
    Makes C gs (kv :: seq) s s' ↔ ∃ n, TextsOf kv.2 n ∧ Makes C gs seq { s with urls := n } s' := by
  obtain ⟨k, v⟩ := kv
  simp only at h
  constructor
  · rintro ⟨h1, h2, h3, h4, h5, h6, h7, h8⟩
    obtain ⟨n, hn, h2⟩ := (lastIs_pos h).1 h2
    obtain ⟨g, hg, h7⟩ := (funcsFrom_cons _ _ _ _ _).1 h7
    have : g = [] := inCalls_option (by rw [h]; decide) hg
    subst this
    refine ⟨n, hn, (lastIs_neg (by rw [h]; decide)).1 h1, h2, (lastIs_neg (by rw [h]; decide)).1 h3,
      (lastIs_neg (by rw [h]; decide)).1 h4, (lastIs_neg (by rw [h]; decide)).1 h5,
      (groupsFrom_neg (by rw [h]; decide) (by rw [h]; decide)).1 h6, by simpa using h7, h8⟩
  · rintro ⟨n, hn, h1, h2, h3, h4, h5, h6, h7, h8⟩
    exact ⟨(lastIs_neg (by rw [h]; decide)).2 h1, (lastIs_pos h).2 ⟨n, hn, h2⟩, (lastIs_neg (by rw [h]; decide)).2 h3,
      (lastIs_neg (by rw [h]; decide)).2 h4, (lastIs_neg (by rw [h]; decide)).2 h5, (groupsFrom_neg (by rw [h]; decide) (by rw [h]; decide)).2 h6,
      (funcsFrom_cons _ _ _ _ _).2 ⟨[], .option (by rw [h]; decide), by simpa using h7⟩, h8⟩

theorem makes_exts {C : TplCtx} {gs : List TopGroup} {kv : Str × Val} {seq : List (Str × Val)} {s s' : InSt} (h : lower kv.1 = c!"extensions") :
    Makes C gs (kv :: seq) s s' ↔ ∃ n, TextsOf kv.2 n ∧ Makes C gs seq { s with extensions := n } s' := by
  obtain ⟨k, v⟩ := kv
  simp only at h
  constructor
  · rintro ⟨h1, h2, h3, h4, h5, h6, h7, h8⟩
    obtain ⟨n, hn, h3⟩ := (lastIs_pos h).1 h3
    obtain ⟨g, hg, h7⟩ := (funcsFrom_cons _ _ _ _ _).1 h7
    have : g = [] := inCalls_option (by rw [h]; decide) hg
    subst this
    refine ⟨n, hn, (lastIs_neg (by rw [h]; decide)).1 h1, (lastIs_neg (by rw [h]; decide)).1 h2, h3,
      (lastIs_neg (by rw [h]; decide)).1 h4, (lastIs_neg (by rw [h]; decide)).1 h5,
      (groupsFrom_neg (by rw [h]; decide) (by rw [h]; decide)).1 h6, by simpa using h7, h8⟩
  · rintro ⟨n, hn, h1, h2, h3, h4, h5, h6, h7, h8⟩
    exact ⟨(lastIs_neg (by rw [h]; decide)).2 h1, (lastIs_neg (by rw [h]; decide)).2 h2, (lastIs_pos h).2 ⟨n, hn, h3⟩,
      (lastIs_neg (by rw [h]; decide)).2 h4, (lastIs_neg (by rw [h]; decide)).2 h5, (groupsFrom_neg (by rw [h]; decide) (by rw [h]; decide)).2 h6,
      (funcsFrom_cons _ _ _ _ _).2 ⟨[], .option (by rw [h]; decide), by simpa using h7⟩, h8⟩

theorem makes_filters {C : TplCtx} {gs : List TopGroup} {kv : Str × Val} {seq : List (Str × Val)} {s s' : InSt} (h : lower kv.1 = c!"filters") :
    Makes C gs (kv :: seq) s s' ↔ ∃ n, TextsOf kv.2 n ∧ Makes C gs seq { s with filters := n } s' := by
  obtain ⟨k, v⟩ := kv
  simp only at h
  constructor
  · rintro ⟨h1, h2, h3, h4, h5, h6, h7, h8⟩
    obtain ⟨n, hn, h4⟩ := (lastIs_pos h).1 h4
    obtain ⟨g, hg, h7⟩ := (funcsFrom_cons _ _ _ _ _).1 h7
    have : g = [] := inCalls_option (by rw [h]; decide) hg
    subst this
    refine ⟨n, hn, (lastIs_neg (by rw [h]; decide)).1 h1, (lastIs_neg (by rw [h]; decide)).1 h2, (lastIs_neg (by rw [h]; decide)).1 h3,
      h4, (lastIs_neg (by rw [h]; decide)).1 h5,
      (groupsFrom_neg (by rw [h]; decide) (by rw [h]; decide)).1 h6, by simpa using h7, h8⟩
  · rintro ⟨n, hn, h1, h2, h3, h4, h5, h6, h7, h8⟩
    exact ⟨(lastIs_neg (by rw [h]; decide)).2 h1, (lastIs_neg (by rw [h]; decide)).2 h2, (lastIs_neg (by rw [h]; decide)).2 h3,
      (lastIs_pos h).2 ⟨n, hn, h4⟩, (lastIs_neg (by rw [h]; decide)).2 h5, (groupsFrom_neg (by rw [h]; decide) (by rw [h]; decide)).2 h6,
      (funcsFrom_cons _ _ _ _ _).2 ⟨[], .option (by rw [h]; decide), by simpa using h7⟩, h8⟩

theorem makes_fn {C : TplCtx} {gs : List TopGroup} {kv : Str × Val} {seq : List (Str × Val)} {s s' : InSt} (h : lower kv.1 ∉ inOptions) :
    Makes C gs (kv :: seq) s s' ↔ ∃ g, InCalls C kv g ∧ Makes C gs seq { s with functions := s.functions ++ g } s' := by
  obtain ⟨k, v⟩ := kv
  simp only [inOptions, List.mem_cons, List.not_mem_nil, or_false, not_or] at h
  obtain ⟨n1, n2, n3, n4, n5, n6⟩ := h
  constructor
  · rintro ⟨h1, h2, h3, h4, h5, h6, h7, h8⟩
    obtain ⟨g, hg, h7⟩ := (funcsFrom_cons _ _ _ _ _).1 h7
    exact ⟨g, hg, (lastIs_neg n2).1 h1, (lastIs_neg n6).1 h2, (lastIs_neg n4).1 h3, (lastIs_neg n5).1 h4, (lastIs_neg n1).1 h5,
      (groupsFrom_neg n3 n1).1 h6, h7, h8⟩
  · rintro ⟨g, hg, h1, h2, h3, h4, h5, h6, h7, h8⟩
    exact ⟨(lastIs_neg n2).2 h1, (lastIs_neg n6).2 h2, (lastIs_neg n4).2 h3, (lastIs_neg n5).2 h4, (lastIs_neg n1).2 h5,
      (groupsFrom_neg n3 n1).2 h6, (funcsFrom_cons _ _ _ _ _).2 ⟨g, hg, h7⟩, h8⟩

theorem inAttrsWith_iff (C : TplCtx) (gs : List TopGroup) (text : Option Str) (all : Dict Str Val) (nested : Dict Str Val → InSt → PyM InSt)
    (attrs : Dict Str Val) (h : NoLoad attrs) (s s' : InSt) : inAttrsWith C gs text all nested attrs s = .ok s' ↔ Makes C gs attrs s s' := by
  induction attrs generalizing s with
  | nil =>
    rw [makes_nil, inAttrsWith]
    simp only [pure_ok, Except.ok.injEq]
    exact eq_comm
  | cons kv attrs ih =>
    obtain ⟨k, v⟩ := kv
    have hl : lower k ≠ c!"load" := h (k, v) (by simp)
    have ih := ih (fun q hq => h q (by simp [hq]))
    rw [inAttrsWith.eq_def]
    dsimp only
    by_cases c1 : lower k = c!"name"
    · rw [if_pos c1, makes_name (by exact c1), bind_ok_iff]
      constructor
      · rintro ⟨t, ht, hr⟩
        exact ⟨strip t, ⟨t, (asText_iff _ _).1 ht, rfl⟩, (ih _).1 hr⟩
      · rintro ⟨n, ⟨t, ht, rfl⟩, hr⟩
        exact ⟨t, (asText_iff _ _).2 ht, (ih _).2 hr⟩
    rw [if_neg c1, if_neg hl]
    by_cases c2 : lower k = c!"groups"
    · rw [if_pos c2, makes_groups (by exact c2), bind_ok_iff]
      constructor
      · rintro ⟨t, ht, hr⟩; exact ⟨t, (inNames_iff _ _).1 ht, (ih _).1 hr⟩
      · rintro ⟨t, ht, hr⟩; exact ⟨t, (inNames_iff _ _).2 ht, (ih _).2 hr⟩
    rw [if_neg c2]
    by_cases c3 : lower k = c!"extensions"
    · rw [if_pos c3, makes_exts (by exact c3), bind_ok_iff]
      constructor
      · rintro ⟨t, ht, hr⟩; exact ⟨t, (textList_iff _ _).1 ht, (ih _).1 hr⟩
      · rintro ⟨t, ht, hr⟩; exact ⟨t, (textList_iff _ _).2 ht, (ih _).2 hr⟩
    rw [if_neg c3]
    by_cases c4 : lower k = c!"filters"
    · rw [if_pos c4, makes_filters (by exact c4), bind_ok_iff]
      constructor
      · rintro ⟨t, ht, hr⟩; exact ⟨t, (textList_iff _ _).1 ht, (ih _).1 hr⟩
      · rintro ⟨t, ht, hr⟩; exact ⟨t, (textList_iff _ _).2 ht, (ih _).2 hr⟩
    rw [if_neg c4]
    by_cases c5 : lower k = c!"url"
    · rw [if_pos c5, makes_url (by exact c5), bind_ok_iff]
      constructor
      · rintro ⟨t, ht, hr⟩; exact ⟨t, (textList_iff _ _).1 ht, (ih _).1 hr⟩
      · rintro ⟨t, ht, hr⟩; exact ⟨t, (textList_iff _ _).2 ht, (ih _).2 hr⟩
    rw [if_neg c5]
    have hno : lower k ∉ inOptions := by simp [inOptions, c1, c2, c3, c4, c5, hl]
    rw [makes_fn (by exact hno)]
    by_cases c6 : lower k = c!"functions"
    · rw [if_pos c6]
      constructor
      · intro hr
        obtain ⟨t, ht, hr⟩ := (bind_ok_iff _ _ _).1 hr
        obtain ⟨fs, hf, hr⟩ := (bind_ok_iff _ _ _).1 hr
        obtain ⟨fs', hf', hr⟩ := (bind_ok_iff _ _ _).1 hr
        obtain ⟨a1, a2⟩ := (inFunctions_iff _ _ _ _).1 hf'
        rw [(asText_iff _ _).1 ht]
        exact ⟨_, .pipe c6 hf a1, by rw [← a2]; exact (ih _).1 hr⟩
      · rintro ⟨g, hg, hr⟩
        cases hg with
        | @pipe _ t fs _ hf a1 =>
          rw [(asText_iff _ _).2 rfl, ok_bind, hf, ok_bind, (inFunctions_iff _ _ _ _).2 ⟨a1, rfl⟩, ok_bind]
          exact (ih _).2 hr
        | commands hk => rw [c6] at hk; exact absurd hk (by decide)
        | noText hk => rw [c6] at hk; exact absurd hk (by decide)
        | own _ hk => rw [c6] at hk; exact absurd hk (by decide)
        | option hk => exact absurd hk hno
        | other _ hk => rw [c6] at hk; exact absurd hk (by decide)
    rw [if_neg c6]
    by_cases c7 : lower k = c!"extract_commands"
    · rw [if_pos c7]
      constructor
      · intro hr
        cases v with
        | str t => exact ⟨_, .commands c7, (ih _).1 hr⟩
        | _ => exact ⟨[], .noText c7 (by intro t e; cases e), by simpa using (ih _).1 hr⟩
      · rintro ⟨g, hg, hr⟩
        cases hg with
        | pipe hk => exact absurd hk c6
        | commands _ => exact (ih _).2 hr
        | noText _ hv =>
          cases v with
          | str t => exact absurd rfl (hv t)
          | _ => exact (ih _).2 (by simpa using hr)
        | own _ hk => rw [c7] at hk; exact absurd hk (by decide)
        | option hk => exact absurd hk hno
        | other _ hk => rw [c7] at hk; exact absurd hk (by decide)
    rw [if_neg c7]
    have hnf : lower k ∉ [c!"functions", c!"extract_commands"] := by simp [c6, c7]
    by_cases c8 : C.isInFn k = true
    · rw [if_pos c8, bind_ok_iff]
      constructor
      · rintro ⟨f, hf, hr⟩
        obtain ⟨fs, hf⟩ := (oneCall_iff _ _ _ _).1 hf
        exact ⟨[f], .own hno hnf c8 hf, (ih _).1 hr⟩
      · rintro ⟨g, hg, hr⟩
        cases hg with
        | pipe hk => exact absurd hk c6
        | commands hk => exact absurd hk c7
        | noText hk => exact absurd hk c7
        | @own _ _ f fs _ _ _ hf => exact ⟨f, (oneCall_iff _ _ _ _).2 ⟨fs, hf⟩, (ih _).2 hr⟩
        | option hk => exact absurd hk hno
        | other _ _ hk => rw [c8] at hk; cases hk
    · rw [if_neg c8]
      constructor
      · intro hr; exact ⟨[], .other hno hnf (by simpa using c8), by simpa using (ih _).1 hr⟩
      · rintro ⟨g, hg, hr⟩
        cases hg with
        | pipe hk => exact absurd hk c6
        | commands hk => exact absurd hk c7
        | noText hk => exact absurd hk c7
        | own _ _ hk => exact absurd hk c8
        | option hk => exact absurd hk hno
        | other => exact (ih _).2 (by simpa using hr)

theorem inAttrsWith_append (C : TplCtx) (gs : List TopGroup) (text : Option Str) (all : Dict Str Val) (nested : Dict Str Val → InSt → PyM InSt)
    (a b : Dict Str Val) (ha : NoLoad a) (s : InSt) : inAttrsWith C gs text all nested (a ++ b) s =
      inAttrsWith C gs text all nested a s >>= inAttrsWith C gs text all nested b := by
  induction a generalizing s with
  | nil => rfl
  | cons kv a ih =>
    have ih := ih (fun q hq => ha q (by simp [hq]))
    rw [List.cons_append, inAttrsWith.eq_def, inAttrsWith.eq_def _ _ _ _ _ (kv :: a)]
    have hl := ha kv (by simp)
    obtain ⟨k, v⟩ := kv
    dsimp only at hl ⊢
    simp only [ih, if_neg hl]
    by_cases c1 : lower k = c!"name"
    · simp only [if_pos c1]; cases asText v <;> rfl
    simp only [if_neg c1]
    by_cases c2 : lower k = c!"groups"
    · simp only [if_pos c2]; cases groupNames v <;> rfl
    simp only [if_neg c2]
    by_cases c3 : lower k = c!"extensions"
    · simp only [if_pos c3]; cases textList v <;> rfl
    simp only [if_neg c3]
    by_cases c4 : lower k = c!"filters"
    · simp only [if_pos c4]; cases textList v <;> rfl
    simp only [if_neg c4]
    by_cases c5 : lower k = c!"url"
    · simp only [if_pos c5]; cases textList v <;> rfl
    simp only [if_neg c5]
    by_cases c6 : lower k = c!"functions"
    · simp only [if_pos c6]
      cases asText v with
      | error e => rfl
      | ok t =>
        simp only [ok_bind]
        cases getAttributes C.load t with
        | error e => rfl
        | ok fs => simp only [ok_bind]; cases inFunctions C fs s.functions <;> rfl
    simp only [if_neg c6]
    by_cases c7 : lower k = c!"extract_commands"
    · simp only [if_pos c7]; cases v <;> rfl
    simp only [if_neg c7]
    by_cases c8 : C.isInFn k = true
    · simp only [if_pos c8]; cases oneCall C.load k v <;> rfl
    · simp only [if_neg c8]

theorem setdefault_eq (d : Dict Str Val) (k : Str) (v : Val) : Dict.setdefault d k v = d ++ (if Dict.get? d k = none then [(k, v)] else []) := by
  unfold Dict.setdefault
  cases hg : Dict.get? d k with
  | none =>
    have h := (Dict.get?_eq_none_iff _ _).1 hg
    rw [(Dict.has_eq_false_iff _ _).2 h, if_neg (by simp), Dict.set_of_not_mem _ _ _ h, if_pos rfl]
  | some g =>
    have : Dict.has d k = true := by unfold Dict.has; rw [hg]; rfl
    rw [this]; simp

theorem inTagAttrs_eq (x : Xml) : inputAttribs x.attrib = inTagAttrs x := by
  have e1 : (Dict.get? (attrVals x.attrib) c!"groups" = none) = (Dict.get? x.attrib c!"groups" = none) := by
    rw [attrVals_get]; cases Dict.get? x.attrib c!"groups" <;> simp
  have e2 : (Dict.get? (Dict.setdefault (attrVals x.attrib) c!"groups" (.list [.str c!"all"])) c!"load" = none) = (Dict.get? x.attrib c!"load" = none) := by
    rw [Dict.get?_setdefault, attrVals_get]; cases Dict.get? x.attrib c!"load" <;> simp
  unfold inputAttribs inTagAttrs
  rw [setdefault_eq _ c!"load"]
  simp only [e2]
  rw [setdefault_eq]
  simp only [e1, List.append_assoc]
  rfl

theorem inTagAttrs_load (x : Xml) : Dict.get? (inTagAttrs x) c!"load" = some (.str ((Dict.get? x.attrib c!"load").getD c!"python")) := by
  rw [← inTagAttrs_eq]
  unfold inputAttribs
  rw [Dict.get?_setdefault, Dict.get?_setdefault, attrVals_get]
  cases Dict.get? x.attrib c!"load" <;> simp

theorem inTagAttrs_include (x : Xml) : Dict.get? (inTagAttrs x) c!"include" = (Dict.get? x.attrib c!"include").map .str := by
  rw [← inTagAttrs_eq]
  unfold inputAttribs
  rw [Dict.get?_setdefault, Dict.get?_setdefault, attrVals_get]
  cases Dict.get? x.attrib c!"include" <;> simp

theorem inTagAttrs_WF (x : Xml) (h : Dict.WF x.attrib) : Dict.WF (inTagAttrs x) := by
  rw [← inTagAttrs_eq]
  unfold inputAttribs
  exact Dict.WF_setdefault _ _ _ (Dict.WF_setdefault _ _ _ (attrVals_WF _ h))

theorem inTagAttrs_keys (x : Xml) (h : ∀ k ∈ Dict.keys x.attrib, lower k = c!"load" → k = c!"load") :
    ∀ kv ∈ inTagAttrs x, lower kv.1 = c!"load" → kv.1 = c!"load" := by
  intro kv hm hk
  unfold inTagAttrs at hm
  rcases List.mem_append.1 hm with hm | hm
  · obtain ⟨q, hq, rfl⟩ := List.mem_map.1 hm
    exact h q.1 (List.mem_map.2 ⟨q, hq, rfl⟩) hk
  · rcases List.mem_append.1 hm with hm | hm
    · split at hm
      · simp only [List.mem_singleton] at hm; subst hm; exact absurd hk (by decide)
      · cases hm
    · split at hm
      · simp only [List.mem_singleton] at hm; subst hm; rfl
      · cases hm

/-- the attributes around `load` -/
theorem split_load (x : Xml) (hw : Dict.WF x.attrib) (h : ∀ k ∈ Dict.keys x.attrib, lower k = c!"load" → k = c!"load") {before after : Dict Str Val} {v : Val}
    (e : inTagAttrs x = before ++ (c!"load", v) :: after) : NoLoad before ∧ NoLoad after ∧ v = .str ((Dict.get? x.attrib c!"load").getD c!"python") := by
  have hwf := inTagAttrs_WF x hw
  unfold Dict.WF Dict.keys at hwf
  rw [e, List.map_append, List.map_cons, List.nodup_append] at hwf
  obtain ⟨_, h2, h3⟩ := hwf
  rw [List.nodup_cons] at h2
  have hk := inTagAttrs_keys x h
  have nb : ∀ kv ∈ before, kv.1 ≠ c!"load" := fun kv hm => h3 kv.1 (List.mem_map.2 ⟨kv, hm, rfl⟩) c!"load" (by simp)
  refine ⟨?_, ?_, ?_⟩
  · intro kv hm hl
    exact nb kv hm (hk kv (by rw [e]; simp [hm]) hl)
  · intro kv hm hl
    have := hk kv (by rw [e]; simp [hm]) hl
    exact h2.1 (List.mem_map.2 ⟨kv, hm, this⟩)
  · have hl := inTagAttrs_load x
    rw [e] at hl
    have key : ∀ b : Dict Str Val, (∀ kv ∈ b, kv.1 ≠ c!"load") → Dict.get? (b ++ (c!"load", v) :: after) c!"load" = some v := by
      intro b hb
      induction b with
      | nil => rw [List.nil_append, Dict.get?_cons]; simp
      | cons a b ih =>
        rw [List.cons_append, Dict.get?_cons, if_neg (hb a (by simp))]
        exact ih (fun kv hm => hb kv (by simp [hm]))
    rw [key before nb] at hl
    exact Option.some.inj hl

theorem exists_load (x : Xml) : ∃ before after v, inTagAttrs x = before ++ (c!"load", v) :: after := by
  have := Dict.mem_of_get? _ _ _ (inTagAttrs_load x)
  obtain ⟨b, a, e⟩ := List.append_of_mem this
  exact ⟨b, a, _, e⟩

theorem makes_cons {C : TplCtx} {gs : List TopGroup} {kv : Str × Val} {seq : List (Str × Val)} {s s' : InSt} :
    Makes C gs (kv :: seq) s s' ↔ ∃ s1, Makes C gs [kv] s s1 ∧ Makes C gs seq s1 s' := by
  have gen : ∀ {α : Type} (P : α → Prop) (u : α → InSt), (∀ seq s', Makes C gs (kv :: seq) s s' ↔ ∃ n, P n ∧ Makes C gs seq (u n) s') →
      (Makes C gs (kv :: seq) s s' ↔ ∃ s1, Makes C gs [kv] s s1 ∧ Makes C gs seq s1 s') := by
    intro α P u h
    constructor
    · intro hm
      obtain ⟨n, hn, hm⟩ := (h _ _).1 hm
      exact ⟨u n, (h _ _).2 ⟨n, hn, (makes_nil _ _ _ _).2 rfl⟩, hm⟩
    · rintro ⟨s1, h1, h2⟩
      obtain ⟨n, hn, h1⟩ := (h _ _).1 h1
      rw [(makes_nil _ _ _ _).1 h1] at h2
      exact (h _ _).2 ⟨n, hn, h2⟩
  by_cases c1 : lower kv.1 = c!"name"
  · exact gen _ _ (fun _ _ => makes_name c1)
  by_cases c2 : lower kv.1 = c!"groups"
  · exact gen _ _ (fun _ _ => makes_groups c2)
  by_cases c3 : lower kv.1 = c!"extensions"
  · exact gen _ _ (fun _ _ => makes_exts c3)
  by_cases c4 : lower kv.1 = c!"filters"
  · exact gen _ _ (fun _ _ => makes_filters c4)
  by_cases c5 : lower kv.1 = c!"url"
  · exact gen _ _ (fun _ _ => makes_url c5)
  by_cases c6 : lower kv.1 = c!"load"
  · exact gen _ _ (fun _ _ => makes_load c6)
  exact gen _ _ (fun _ _ => makes_fn (by simp [inOptions, c1, c2, c3, c4, c5, c6]))

theorem makes_append {C : TplCtx} {gs : List TopGroup} {a b : List (Str × Val)} {s s' : InSt} :
    Makes C gs (a ++ b) s s' ↔ ∃ s1, Makes C gs a s s1 ∧ Makes C gs b s1 s' := by
  induction a generalizing s with
  | nil => simp [makes_nil]
  | cons kv a ih =>
    rw [List.cons_append, makes_cons]
    constructor
    · rintro ⟨s1, h1, h2⟩
      obtain ⟨s2, h2, h3⟩ := ih.1 h2
      exact ⟨s2, makes_cons.2 ⟨s1, h1, h2⟩, h3⟩
    · rintro ⟨s2, h1, h3⟩
      obtain ⟨s1, h1, h2⟩ := makes_cons.1 h1
      exact ⟨s1, h1, ih.2 ⟨s2, h2, h3⟩⟩

theorem makes_params {C : TplCtx} {gs : List TopGroup} {a : List (Str × Val)} {s s' : InSt} (p : Val) (h : Makes C gs a s s') :
    Makes C gs a { s with parameters := p } { s' with parameters := p } :=
  ⟨h.load, h.urls, h.exts, h.filters, h.name, h.groups, h.functions, rfl⟩

/-- what is loaded of the text -/
theorem loadStruct_in (C : TplCtx) (x : Xml) (p : Val) : loadStruct C x.text (inTagAttrs x) = .ok p ↔
    (x.text.getD [] = [] ∧ Dict.get? x.attrib c!"include" = none ∧ p = .none) ∨
    (¬ (x.text.getD [] = [] ∧ Dict.get? x.attrib c!"include" = none) ∧ ∃ f, LoaderOf C x f ∧ f (x.text.getD []) (inTagAttrs x) = .ok p) := by
  unfold loadStruct
  rw [inTagAttrs_load, inTagAttrs_include]
  dsimp only [Option.getD_some]
  have e : ((Dict.get? x.attrib c!"include").map Val.str).getD .none = .none ↔ Dict.get? x.attrib c!"include" = none := by
    cases Dict.get? x.attrib c!"include" <;> simp
  simp only [e]
  unfold LoaderOf
  by_cases h : x.text.getD [] = [] ∧ Dict.get? x.attrib c!"include" = none
  · rw [if_pos h]
    simp only [pure_ok, Except.ok.injEq]
    constructor
    · rintro rfl; exact Or.inl ⟨h.1, h.2, rfl⟩
    · rintro (⟨_, _, rfl⟩ | ⟨h', _⟩)
      · rfl
      · exact absurd h h'
  · rw [if_neg h]
    cases hl : C.loader (lower ((Dict.get? x.attrib c!"load").getD c!"python")) with
    | none =>
      constructor
      · intro h'; cases h'
      · rintro (⟨h1, h2, _⟩ | ⟨_, f, hf, _⟩)
        · exact absurd ⟨h1, h2⟩ h
        · cases hf
    | some f =>
      dsimp only
      constructor
      · intro h'; exact Or.inr ⟨h, f, rfl, h'⟩
      · rintro (⟨h1, h2, _⟩ | ⟨_, g, hg, h'⟩)
        · exact absurd ⟨h1, h2⟩ h
        · cases hg; exact h'

/-- an input tag: what is made of its attributes and its text -/
theorem inAttrs_iff (C : TplCtx) (gs : List TopGroup) (x : Xml) (hw : Dict.WF x.attrib)
    (h : ∀ k ∈ Dict.keys x.attrib, lower k = c!"load" → k = c!"load")
    (hd : ∀ d, InText C x d → NoLoad (d.filterMap strEntry)) (k : Nat) (s s' : InSt) (hs : s.parameters = .dict []) :
    inAttrs C gs (k + 2) x.text (inTagAttrs x) s = .ok s' ↔
      ∃ d seq, InText C x d ∧ InOrder x d seq ∧ Makes C gs seq { s with parameters := .dict d } s' := by
  obtain ⟨before, after, v, e⟩ := exists_load x
  obtain ⟨nb, na, hv⟩ := split_load x hw h e
  rw [inAttrs]
  generalize hN : (fun d s => inAttrs C gs (k + 1) (some []) d s) = N
  have hnest : ∀ d, NoLoad (strKeys d) → ∀ s1 s2, N (strKeys d) s1 = .ok s2 ↔ Makes C gs (strKeys d) s1 s2 := by
    intro d hnl s1 s2
    subst hN
    dsimp only
    rw [inAttrs]
    exact inAttrsWith_iff C gs _ _ _ _ hnl s1 s2
  conv => lhs; rw [e, inAttrsWith_append _ _ _ _ _ _ _ nb, ← e]
  rw [bind_ok_iff]
  generalize hl : (Dict.get? x.attrib c!"load").getD c!"python" = l at *
  subst hv
  have htail : ∀ (d : Dict Key Val) (s1 : InSt), NoLoad (d.filterMap strEntry) → s1.parameters = .dict [] →
      ((∃ s2, N (strKeys d) { s1 with load := strip l, parameters := .dict d } = .ok s2 ∧ inAttrsWith C gs x.text (inTagAttrs x) N after s2 = .ok s') ↔
        Makes C gs ((c!"load", .str l) :: (d.filterMap strEntry ++ after)) { s1 with parameters := .dict d } s') := by
    intro d s1 hnl hp
    rw [makes_load (by rfl)]
    constructor
    · rintro ⟨s2, h1, h2⟩
      refine ⟨strip l, ⟨l, rfl, rfl⟩, makes_append.2 ⟨s2, ?_, (inAttrsWith_iff C gs _ _ _ _ na _ _).1 h2⟩⟩
      have := (hnest d (by rw [strKeys_entries]; exact hnl) _ _).1 h1
      rwa [strKeys_entries] at this
    · rintro ⟨n, ⟨l', e', rfl⟩, hm⟩
      cases e'
      obtain ⟨s2, h1, h2⟩ := makes_append.1 hm
      refine ⟨s2, (hnest d (by rw [strKeys_entries]; exact hnl) _ _).2 ?_, (inAttrsWith_iff C gs _ _ _ _ na _ _).2 h2⟩
      rw [strKeys_entries]; exact h1
  have htail0 : ∀ (s1 : InSt), s1.parameters = .dict [] →
      (inAttrsWith C gs x.text (inTagAttrs x) N after { s1 with load := strip l } = .ok s' ↔
        Makes C gs ((c!"load", .str l) :: ([] ++ after)) { s1 with parameters := .dict [] } s') := by
    intro s1 hp
    rw [makes_load (by rfl), inAttrsWith_iff C gs _ _ _ _ na]
    constructor
    · intro hm; refine ⟨strip l, ⟨l, rfl, rfl⟩, ?_⟩
      have : ({ s1 with parameters := .dict [], load := strip l } : InSt) = { s1 with load := strip l } := by rw [← hp]
      dsimp only at this ⊢
      rw [this]; exact hm
    · rintro ⟨n, ⟨l', e', rfl⟩, hm⟩
      cases e'
      have : ({ s1 with parameters := .dict [], load := strip l } : InSt) = { s1 with load := strip l } := by rw [← hp]
      dsimp only at this hm
      rw [this] at hm; exact hm
  have hstep : ∀ s1 : InSt, s1.parameters = .dict [] → (inAttrsWith C gs x.text (inTagAttrs x) N ((c!"load", .str l) :: after) s1 = .ok s' ↔
      ∃ d, InText C x d ∧ Makes C gs ((c!"load", .str l) :: (d.filterMap strEntry ++ after)) { s1 with parameters := .dict d } s') := by
    intro s1 hp
    rw [inAttrsWith.eq_def]
    dsimp only
    rw [if_neg (by decide), if_pos (by decide), show asText (.str l) = .ok l from rfl, ok_bind]
    by_cases ht : strip l = c!"text"
    · rw [if_pos ht, htail0 s1 hp]
      constructor
      · intro hm; exact ⟨[], .text (by rw [hl]; exact ht), hm⟩
      · rintro ⟨d, hd', hm⟩
        cases hd' with
        | text => exact hm
        | nothing hn => rw [hl] at hn; exact absurd ht hn
        | loaded hn => rw [hl] at hn; exact absurd ht hn
        | empty hn => rw [hl] at hn; exact absurd ht hn
    · rw [if_neg ht, bind_ok_iff]
      constructor
      · rintro ⟨p, hp1, hp2⟩
        have hp1 := (loadStruct_in C x p).1 hp1
        rcases hp1 with ⟨a1, a2, rfl⟩ | ⟨a1, f, hf, a2⟩
        · refine ⟨[], .nothing (by rw [hl]; exact ht) a1 a2, (htail0 s1 hp).1 ?_⟩
          exact hp2
        · by_cases hdict : ∃ d, p = .dict d
          · obtain ⟨d, rfl⟩ := hdict
            have hI : InText C x d := .loaded (by rw [hl]; exact ht) a1 hf a2
            refine ⟨d, hI, ?_⟩
            dsimp only at hp2
            by_cases hz : d = []
            · subst hz; rw [if_pos rfl] at hp2; exact (htail0 s1 hp).1 hp2
            · rw [if_neg hz, bind_ok_iff] at hp2
              exact (htail d s1 (hd d hI) hp).1 hp2
          · have hnd : ∀ d, p ≠ .dict d := fun d e => hdict ⟨d, e⟩
            by_cases htr : p.truthy = true
            · exfalso
              cases p with
              | dict d => exact hnd d rfl
              | _ => (dsimp only at hp2; rw [if_pos htr] at hp2; cases hp2)
            · refine ⟨[], .empty (by rw [hl]; exact ht) a1 hf a2 hnd (by simpa using htr), (htail0 s1 hp).1 ?_⟩
              cases p with
              | dict d => exact absurd rfl (hnd d)
              | _ => (dsimp only at hp2; rw [if_neg htr] at hp2; exact hp2)
      · rintro ⟨d, hI, hm⟩
        cases hI with
        | text hn => rw [hl] at hn; exact absurd hn ht
        | nothing _ a1 a2 => exact ⟨.none, (loadStruct_in C x _).2 (Or.inl ⟨a1, a2, rfl⟩), (htail0 s1 hp).2 hm⟩
        | @loaded f _ _ a1 hf a2 =>
          have hI : InText C x d := .loaded (by rw [hl]; exact ht) a1 hf a2
          refine ⟨.dict d, (loadStruct_in C x _).2 (Or.inr ⟨a1, f, hf, a2⟩), ?_⟩
          dsimp only
          by_cases hz : d = []
          · subst hz; rw [if_pos rfl]; exact (htail0 s1 hp).2 hm
          · rw [if_neg hz, bind_ok_iff]; exact (htail d s1 (hd d hI) hp).2 hm
        | @empty f p _ a1 hf a2 hnd htr =>
          refine ⟨p, (loadStruct_in C x _).2 (Or.inr ⟨a1, f, hf, a2⟩), ?_⟩
          cases p with
          | dict d => exact absurd rfl (hnd d)
          | _ => (dsimp only; rw [if_neg (by rw [htr]; simp)]; exact (htail0 s1 hp).2 hm)
  constructor
  · rintro ⟨s1, h1, h2⟩
    have h1 := (inAttrsWith_iff C gs _ _ _ _ nb _ _).1 h1
    have hp : s1.parameters = .dict [] := by rw [h1.parameters, hs]
    obtain ⟨d, hI, hm⟩ := (hstep s1 hp).1 h2
    exact ⟨d, _, hI, ⟨before, after, _, e, rfl⟩, makes_append.2 ⟨_, makes_params _ h1, hm⟩⟩
  · rintro ⟨d, seq, hI, ⟨b, a, v, e', rfl⟩, hm⟩
    obtain ⟨nb', na', hv'⟩ := split_load x hw h e'
    rw [hl] at hv'
    subst hv'
    have : b = before ∧ a = after := by
      rw [e] at e'
      have key : ∀ (b1 b2 : List (Str × Val)), NoLoad b1 → NoLoad b2 → b1 ++ (c!"load", Val.str l) :: after = b2 ++ (c!"load", Val.str l) :: a → b2 = b1 ∧ a = after := by
        intro b1
        induction b1 with
        | nil =>
          intro b2 _ n2 e
          cases b2 with
          | nil => simp only [List.nil_append, List.cons.injEq, true_and] at e; exact ⟨rfl, e.symm⟩
          | cons q b2 =>
            simp only [List.nil_append, List.cons_append, List.cons.injEq] at e
            exact absurd (by rw [← e.1]; rfl) (n2 q (by simp))
        | cons q1 b1 ih =>
          intro b2 n1 n2 e
          cases b2 with
          | nil =>
            simp only [List.nil_append, List.cons_append, List.cons.injEq] at e
            exact absurd (by rw [e.1]; rfl) (n1 q1 (by simp))
          | cons q b2 =>
            simp only [List.cons_append, List.cons.injEq] at e
            obtain ⟨rfl, e⟩ := e
            obtain ⟨h1, h2⟩ := ih b2 (fun kv hm => n1 kv (by simp [hm])) (fun kv hm => n2 kv (by simp [hm])) e
            exact ⟨by rw [h1], h2⟩
      exact key before b nb nb' e'
    obtain ⟨rfl, rfl⟩ := this
    obtain ⟨s1, h1, h2⟩ := makes_append.1 hm
    refine ⟨{ s1 with parameters := .dict [] }, (inAttrsWith_iff C gs _ _ _ _ nb _ _).2 ?_, (hstep _ rfl).2 ⟨d, hI, ?_⟩⟩
    · have := makes_params (.dict []) h1
      dsimp only at this
      rw [← hs] at this ⊢
      exact this
    · have hp := h1.parameters
      dsimp only at hp ⊢
      rw [← hp]; exact h2

end TTP
