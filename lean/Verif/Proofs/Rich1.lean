import Verif.Proofs.Exprs
/-! # Lemmas: lines with patterns -/

namespace TTP
open Py Spec Re

/-! ## Named patterns -/

/-- the expression of a named pattern -/
def patRe (n : Str) : Re := ((getPattern n).bind ReText.compile).getD .eps

theorem pat_of {n p : Str} {r : Re} {L : Str → Prop} (hp : getPattern n = some p) (hc : ReText.compile p = some r) (hL : Lang r L)
    (hn : ReText.names r = []) :
    (∃ p, getPattern n = some p ∧ ReText.compile p = some (patRe n)) ∧ Lang (patRe n) (NamedMatch n) ∧ ReText.names (patRe n) = [] := by
  have e : patRe n = r := by simp [patRe, hp, hc]
  have hfull : ∀ s, NamedMatch n s ↔ L s := by
    intro s
    have := Lang.full hc hL s
    constructor
    · rintro ⟨p', h1, h2⟩
      rw [hp] at h1
      cases h1
      exact this.1 h2
    · intro h; exact ⟨p, hp, this.2 h⟩
  refine ⟨⟨p, hp, by rw [hc, e]⟩, ?_, by rw [e]; exact hn⟩
  rw [e]; exact hL.congr (fun s => (hfull s).symm)

theorem pattern_lang (n : Str) (hn : n ∈ patternNames) :
    (∃ p, getPattern n = some p ∧ ReText.compile p = some (patRe n)) ∧ Lang (patRe n) (NamedMatch n) ∧ ReText.names (patRe n) = [] := by
  simp only [patternNames, List.mem_cons, List.not_mem_nil, or_false] at hn
  rcases hn with rfl | rfl | rfl | rfl | rfl | rfl | rfl | rfl | rfl | rfl
  · exact pat_of rfl compile_word lang_word.seqEps (by decide +kernel)
  · exact pat_of rfl compile_digit (Lang.plusCls true .digit).seqEps (by decide +kernel)
  · exact pat_of rfl compile_phrase lang_phrase (by decide +kernel)
  · exact pat_of rfl compile_row lang_row (by decide +kernel)
  · exact pat_of rfl compile_orphrase (lang_word.seqEps.alt lang_phrase) (by decide +kernel)
  · exact pat_of rfl compile_ip (lang_ip Lang.eps) (by decide +kernel)
  · exact pat_of rfl compile_prefix (lang_ip (Props.lang_slash 1)) (by decide +kernel)
  · exact pat_of rfl compile_ip6 (lang_ip6 Lang.eps) (by decide +kernel)
  · exact pat_of rfl compile_prefix6 (lang_ip6 (Props.lang_slash 2)) (by decide +kernel)
  · exact pat_of rfl compile_mac ((lang_mac 2 5).alt (lang_mac 4 2)) (by decide +kernel)

/-! ## Expressions of a template -/

theorem mem_cat_star (g : Bool) {r : Re} {L : Str → Prop} (h : Lang r L) :
    Lang (.star g r) (fun s => ∃ n, Cat (fun w => L w ∧ w ≠ []) n s) := by
  have key : ∀ n s x, s.length ≤ n → (x ∈ starRun (run r) g n s ↔ (∃ n, Cat (fun w => L w ∧ w ≠ []) n x.1) ∧ x.1 ++ x.2.1 = s ∧ x.2.2 = []) := by
    intro n
    induction n with
    | zero =>
      intro s x hs
      have : s = [] := List.length_eq_zero_iff.1 (by omega)
      subst this
      obtain ⟨a, b, d⟩ := x
      simp only [starRun, List.mem_singleton, Prod.mk.injEq, List.append_eq_nil_iff]
      constructor
      · rintro ⟨rfl, rfl, rfl⟩; exact ⟨⟨0, [], rfl, by simp, rfl⟩, ⟨rfl, rfl⟩, rfl⟩
      · rintro ⟨_, ⟨h1, h2⟩, h3⟩; exact ⟨h1, h2, h3⟩
    | succ n ih =>
      intro s x hs
      rw [mem_starRun]
      constructor
      · rintro (rfl | ⟨k, ek, h1, m1, hn, h2, m2, rfl⟩)
        · exact ⟨⟨0, [], rfl, by simp, rfl⟩, rfl, rfl⟩
        · cases ek
          obtain ⟨a1, a2, a3⟩ := (h _ _).1 m1
          have hl : h1.2.1.length ≤ n := by
            have := congrArg List.length a2
            rw [List.length_append] at this
            have : h1.1.length ≠ 0 := by intro e; exact hn (List.length_eq_zero_iff.1 e)
            omega
          obtain ⟨⟨m, ws, e1, e2, e3⟩, b2, b3⟩ := (ih _ _ hl).1 m2
          refine ⟨⟨m + 1, h1.1 :: ws, by simp [e1], ?_, by simp [e3]⟩, by simp only [List.append_assoc]; rw [b2, a2], by simp [a3, b3]⟩
          intro w hw
          rcases List.mem_cons.1 hw with rfl | hw
          · exact ⟨a1, hn⟩
          · exact e2 w hw
      · obtain ⟨a, b, d⟩ := x
        rintro ⟨⟨m, ws, e1, e2, e3⟩, h2, h3⟩
        simp only at e3 h2 h3
        subst h3
        cases ws with
        | nil =>
          simp only [List.flatten_nil] at e3
          subst e3
          exact Or.inl (by simpa using h2)
        | cons w ws =>
          right
          have hw := e2 w (by simp)
          refine ⟨n, rfl, (w, ws.flatten ++ b, []), (h _ _).2 ⟨hw.1, by rw [← h2, e3]; simp, rfl⟩, hw.2,
            (ws.flatten, b, []), ?_, by simp [e3]⟩
          refine (ih _ _ ?_).2 ⟨⟨ws.length, ws, rfl, fun v hv => e2 v (by simp [hv]), rfl⟩, rfl, rfl⟩
          have := congrArg List.length h2
          rw [e3] at this
          simp only [List.flatten_cons, List.length_append] at this
          have : w.length ≠ 0 := by intro e; exact hw.2 (List.length_eq_zero_iff.1 e)
          simp only [List.length_append]
          omega
  intro s x
  exact key _ s x (Nat.le_refl _)

theorem simple_lang (r : Re) (h : SimpleRe r) : (∃ L, Lang r L) ∧ ReText.names r = [] := by
  induction r with
  | eps => exact ⟨⟨_, Lang.eps⟩, rfl⟩
  | cls c => exact ⟨⟨_, Lang.cls c⟩, rfl⟩
  | seq a b iha ihb =>
    obtain ⟨⟨L, hL⟩, n1⟩ := iha h.1
    obtain ⟨⟨M, hM⟩, n2⟩ := ihb h.2
    exact ⟨⟨_, hL.seq hM⟩, by show ReText.names a ++ ReText.names b = []; rw [n1, n2]; rfl⟩
  | alt a b iha ihb =>
    obtain ⟨⟨L, hL⟩, n1⟩ := iha h.1
    obtain ⟨⟨M, hM⟩, n2⟩ := ihb h.2
    exact ⟨⟨_, hL.alt hM⟩, by show ReText.names a ++ ReText.names b = []; rw [n1, n2]; rfl⟩
  | star g r ih =>
    obtain ⟨⟨L, hL⟩, n1⟩ := ih h
    exact ⟨⟨_, mem_cat_star g hL⟩, n1⟩
  | cap n r _ => exact absurd h id
  | look r _ => exact absurd h id
  | eos => exact absurd h id

/-- the expression of a text -/
def exprRe (t : Str) : Re := (ReText.compile t).getD .eps

theorem expr_lang (t : Str) (h : LineExpr t) : ReText.compile t = some (exprRe t) ∧ Lang (exprRe t) (FullMatch t) ∧ ReText.names (exprRe t) = [] := by
  obtain ⟨⟨r, hr, hs⟩, _⟩ := h
  have e : exprRe t = r := by simp [exprRe, hr]
  obtain ⟨⟨L, hL⟩, hn⟩ := simple_lang r hs
  rw [e]
  exact ⟨hr, hL.congr (fun s => (Lang.full hr hL s).symm), hn⟩

/-- the expression of an option -/
def optRe (f : FnCall) : Option Re :=
  if f.name ∈ patternNames then some (patRe f.name)
  else if f.name = c!"re" then
    match f.args with
    | [.str t] => some (exprRe t)
    | _ => none
  else none

/-- the texts of an option -/
def OptHolds (f : FnCall) (u : Str) : Prop :=
  (f.name ∈ patternNames ∧ NamedMatch f.name u) ∨ ∃ t, f.name = c!"re" ∧ f.args = [.str t] ∧ FullMatch t u

/-- the expressions of a variable -/
def exprsOf (v : RVar) : List Re := v.opts.filterMap optRe

theorem optRe_lang (f : FnCall) (h : OptOK f) : (optRe f = none ∧ f.name ≠ c!"re" ∧ f.name ∉ patternNames ∧ ∀ u, ¬ OptHolds f u) ∨
    ∃ r, optRe f = some r ∧ Lang r (OptHolds f) ∧ ReText.names r = [] ∧ (f.name = c!"re" ∨ f.name ∈ patternNames) := by
  by_cases hp : f.name ∈ patternNames
  · right
    obtain ⟨_, h2, h3⟩ := pattern_lang f.name hp
    have hr : f.name ≠ c!"re" := by intro e; rw [e] at hp; revert hp; decide
    exact ⟨patRe f.name, by simp [optRe, hp], h2.congr (fun s => by simp [OptHolds, hp, hr]), h3, Or.inr hp⟩
  · by_cases hr : f.name = c!"re"
    · right
      rcases h with ⟨h1, _⟩ | ⟨h1, _⟩ | h1 | h1 | h1 | ⟨h1, _⟩ | ⟨_, t, h1, h2⟩
      · exact absurd h1 hp
      · exfalso; rw [hr] at h1; revert h1; decide
      · exfalso; rw [hr] at h1; revert h1; decide
      · exfalso; rw [hr] at h1; revert h1; decide
      · exfalso; rw [hr] at h1; revert h1; decide
      · exfalso; rw [hr] at h1; revert h1; decide
      · obtain ⟨_, h3, h4⟩ := expr_lang t h2
        refine ⟨exprRe t, by unfold optRe; rw [if_neg hp, if_pos hr, h1], h3.congr (fun s => ?_), h4, Or.inl hr⟩
        constructor
        · intro hf; exact Or.inr ⟨t, hr, h1, hf⟩
        · rintro (⟨hx, _⟩ | ⟨t', _, e, hf⟩)
          · exact absurd hx hp
          · rw [h1] at e
            cases e
            exact hf
    · left
      refine ⟨by simp [optRe, hp, hr], hr, hp, ?_⟩
      rintro u (⟨hx, _⟩ | ⟨t, hx, _⟩)
      · exact hp hx
      · exact hr hx

theorem lang_altAll (fs : List FnCall) (h : ∀ f ∈ fs, OptOK f) :
    Lang (altAll (fs.filterMap optRe)) (fun u => ((∀ f ∈ fs, f.name ≠ c!"re" ∧ f.name ∉ patternNames) ∧ Word u) ∨ ∃ f ∈ fs, OptHolds f u) ∧
    ReText.names (altAll (fs.filterMap optRe)) = [] := by
  have key : ∀ fs : List FnCall, (∀ f ∈ fs, OptOK f) →
      (fs.filterMap optRe = [] ∧ (∀ f ∈ fs, f.name ≠ c!"re" ∧ f.name ∉ patternNames ∧ ∀ u, ¬ OptHolds f u)) ∨
      (fs.filterMap optRe ≠ [] ∧ (∃ f ∈ fs, f.name = c!"re" ∨ f.name ∈ patternNames) ∧
        Lang (altAll (fs.filterMap optRe)) (fun u => ∃ f ∈ fs, OptHolds f u) ∧ ReText.names (altAll (fs.filterMap optRe)) = []) := by
    intro fs
    induction fs with
    | nil => intro _; exact Or.inl ⟨rfl, by simp⟩
    | cons f fs ih =>
      intro hp
      have ih' := ih (fun x hx => hp x (by simp [hx]))
      rcases optRe_lang f (hp f (by simp)) with ⟨e, h1, h2, h3⟩ | ⟨r, e, h1, h2, h3⟩
      · rw [List.filterMap_cons_none e]
        rcases ih' with ⟨e', h4⟩ | ⟨e', ⟨g, hg, h4⟩, h5, h6⟩
        · refine Or.inl ⟨e', ?_⟩
          intro x hx
          rcases List.mem_cons.1 hx with rfl | hx
          · exact ⟨h1, h2, h3⟩
          · exact h4 x hx
        · exact Or.inr ⟨e', ⟨g, by simp [hg], h4⟩, h5.congr (fun s => by simp [h3]), h6⟩
      · rw [List.filterMap_cons_some e]
        refine Or.inr ⟨by simp, ⟨f, by simp, h3⟩, ?_⟩
        rcases ih' with ⟨e', h4⟩ | ⟨e', _, h5, h6⟩
        · rw [e']
          refine ⟨h1.congr (fun s => ?_), h2⟩
          constructor
          · intro hs; exact ⟨f, by simp, hs⟩
          · rintro ⟨x, hx, hs⟩
            rcases List.mem_cons.1 hx with rfl | hx
            · exact hs
            · exact absurd hs ((h4 x hx).2.2 s)
        · obtain ⟨q, qs, eq⟩ := List.exists_cons_of_ne_nil e'
          rw [eq] at h5 h6 ⊢
          exact ⟨(h1.alt h5).congr (fun s => by simp), by show ReText.names r ++ ReText.names (altAll (q :: qs)) = []; rw [h2, h6]; rfl⟩
  rcases key fs h with ⟨e, h1⟩ | ⟨_, ⟨g, hg, h1⟩, h2, h3⟩
  · rw [e]
    refine ⟨lang_word.congr (fun s => ?_), by decide⟩
    constructor
    · intro hw; exact Or.inl ⟨fun f hf => ⟨(h1 f hf).1, (h1 f hf).2.1⟩, hw⟩
    · rintro (⟨_, hw⟩ | ⟨f, hf, hs⟩)
      · exact hw
      · exact absurd hs ((h1 f hf).2.2 s)
  · refine ⟨h2.congr (fun s => ?_), h3⟩
    constructor
    · intro hs; exact Or.inr hs
    · rintro (⟨hn, _⟩ | hs)
      · rcases h1 with h1 | h1
        · exact absurd h1 (hn g hg).1
        · exact absurd h1 (hn g hg).2
      · exact hs

/-! ## A line -/

/-- action of a variable -/
def markAction : Option Bool → Action
  | none => .add
  | some true => .start
  | some false => .end_

/-- a variable as the line compiler sees it -/
def richInfo (v : RVar) : VarInfo := ⟨v.name, v.name, markAction v.mark, false, exprsOf v, v.checks, false, false, none, false⟩

/-- `ignore` as the line compiler sees it -/
def ignInfo (e : Option Str) : VarInfo := ⟨c!"ignore", c!"ignore", .add, false, [], [], false, true, e.map exprRe, true⟩

theorem varRe_ign (e : Option Str) : varRe (ignInfo e) = (e.map exprRe).getD reWORD := by cases e <;> rfl

theorem ign_lang (e : Option Str) (he : ∀ t, e = some t → LineExpr t) : Lang (varRe (ignInfo e)) (IgnHolds e) ∧
    ReText.names (varRe (ignInfo e)) = [] := by
  cases e with
  | none => exact ⟨lang_word, by decide⟩
  | some t => exact ⟨(expr_lang t (he t rfl)).2.1, (expr_lang t (he t rfl)).2.2⟩

theorem ign_nl (e : Option Str) (he : ∀ t, e = some t → LineExpr t) (u : Str) (h : IgnHolds e u) : '\n' ∉ u := by
  cases e with
  | none => intro hm; have := h.2 _ hm; revert this; decide
  | some t => exact (he t rfl).2 u h

/-- pieces of a line as the line compiler sees them -/
def richEls : List RPiece → List (Elem VarInfo)
  | [] => []
  | .text t :: ps => chs t ++ richEls ps
  | .var v _ :: ps => .var (richInfo v) :: richEls ps
  | .ign e _ :: ps => .var (ignInfo e) :: richEls ps

/-- names and texts -/
def capsOf (vals : List (RVar × Str)) : List (Str × Str) := vals.map (fun vu => (vu.1.name, vu.2))

theorem holds_iff (v : RVar) (u : Str) : v.Holds u ↔
    ((∀ f ∈ v.opts, f.name ≠ c!"re" ∧ f.name ∉ patternNames) ∧ Word u) ∨ ∃ f ∈ v.opts, OptHolds f u := by
  unfold RVar.Holds OptHolds
  constructor
  · rintro (h | ⟨f, hf, h⟩ | ⟨f, hf, h⟩)
    · exact Or.inl h
    · exact Or.inr ⟨f, hf, Or.inl h⟩
    · exact Or.inr ⟨f, hf, Or.inr h⟩
  · rintro (h | ⟨f, hf, h | h⟩)
    · exact Or.inl h
    · exact Or.inr (Or.inl ⟨f, hf, h⟩)
    · exact Or.inr (Or.inr ⟨f, hf, h⟩)

theorem holds_lang (v : RVar) (hv : v.OK) : Lang (altAll (exprsOf v)) v.Holds :=
  (lang_altAll v.opts hv.opts).1.congr (fun s => (holds_iff v s).symm)

theorem holds_nl (v : RVar) (hv : v.OK) (u : Str) (h : v.Holds u) : '\n' ∉ u := by
  rcases h with ⟨_, h⟩ | ⟨f, _, _, h⟩ | ⟨f, hf, t, h1, h2, h3⟩
  · intro hm; have := h.2 _ hm; revert this; decide
  · exact Props.C132_one_line _ u h
  · rcases hv.opts f hf with ⟨h, _⟩ | ⟨h, _⟩ | h | h | h | ⟨h, _⟩ | ⟨_, t', h, h4⟩
    · exfalso; rw [h1] at h; revert h; decide
    · exfalso; rw [h1] at h; revert h; decide
    · exfalso; rw [h1] at h; revert h; decide
    · exfalso; rw [h1] at h; revert h; decide
    · exfalso; rw [h1] at h; revert h; decide
    · exfalso; rw [h1] at h; revert h; decide
    · rw [h2] at h
      cases h
      exact h4.2 u h3

theorem mem_rich (ps : List RPiece) (hv : ∀ v b, RPiece.var v b ∈ ps → v.OK)
    (hi : ∀ e b, RPiece.ign e b ∈ ps → ∀ t, e = some t → LineExpr t) (hp : Parted ps) (s : Str) (h : Re.Hit) :
    h ∈ run (elemsRe false false .other (richEls ps)) s ↔ ∃ vals, Fills ps h.1 vals ∧ h.2.2 = capsOf vals ∧ h.1 ++ h.2.1 = s := by
  -- the kind before a variable does not matter
  have start : ∀ ps, (∀ t ps', ps ≠ RPiece.text t :: ps') → ∀ k, elemsRe false false k (richEls ps) = elemsRe false false .other (richEls ps) := by
    intro ps hps k
    cases ps with
    | nil => rfl
    | cons p ps =>
      cases p with
      | text t => exact absurd rfl (hps t ps)
      | var v b => rfl
      | ign e b => rfl
  induction ps generalizing s h with
  | nil =>
    obtain ⟨a, b, c⟩ := h
    simp only [richEls, elemsRe, mem_eps, Prod.mk.injEq]
    constructor
    · rintro ⟨rfl, rfl, rfl⟩; exact ⟨[], .nil, rfl, rfl⟩
    · rintro ⟨vals, hf, rfl, rfl⟩
      cases hf
      exact ⟨rfl, rfl, rfl⟩
  | cons p ps ih =>
    have hv' : ∀ v b, RPiece.var v b ∈ ps → v.OK := fun v b h => hv v b (by simp [h])
    have hi' : ∀ e b, RPiece.ign e b ∈ ps → ∀ t, e = some t → LineExpr t := fun e b h => hi e b (by simp [h])
    cases p with
    | ign e b =>
      have hp' : Parted ps := by cases ps <;> exact hp
      rw [richEls, elemsRe, mem_seq]
      have hl := (ign_lang e (hi e b (by simp))).1
      constructor
      · rintro ⟨h1, m1, h2, m2, rfl⟩
        rw [hl] at m1
        obtain ⟨a1, a2, a3⟩ := m1
        obtain ⟨vals, b1, b2, b3⟩ := (ih hv' hi' hp' _ _).1 m2
        refine ⟨vals, .ign a1 b1, ?_, ?_⟩
        · show h1.2.2 ++ h2.2.2 = _
          rw [a3, b2]; rfl
        · show h1.1 ++ h2.1 ++ h2.2.1 = s
          rw [List.append_assoc, b3, a2]
      · rintro ⟨vals, hf, e1, e2⟩
        obtain ⟨hh, rest, caps⟩ := h
        cases hf with
        | @ign _ _ u y _ vs hu hf =>
          simp only at e1 e2
          refine ⟨(u, y ++ rest, []), (hl _ _).2 ⟨hu, by simpa using e2, rfl⟩, (y, rest, caps), ?_, rfl⟩
          exact (ih hv' hi' hp' _ _).2 ⟨_, hf, e1, rfl⟩
    | text t =>
      have hp' : Parted ps ∧ ∀ t' ps', ps ≠ RPiece.text t' :: ps' := by
        cases ps with
        | nil => exact ⟨trivial, by intro t' ps' e; cases e⟩
        | cons q qs =>
          cases q with
          | text t' => exact absurd hp id
          | var v b => exact ⟨hp, by intro t' ps' e; cases e⟩
          | ign e b => exact ⟨hp, by intro t' ps' e; cases e⟩
      rw [richEls, elemsRe_append, mem_seq, start ps hp'.2]
      constructor
      · rintro ⟨h1, m1, h2, m2, rfl⟩
        rw [mem_chs] at m1
        obtain ⟨a1, a2, a3⟩ := m1
        obtain ⟨vals, b1, b2, b3⟩ := (ih hv' hi' hp'.1 _ _).1 m2
        refine ⟨vals, .text (by simpa using a1) b1, ?_, ?_⟩
        · show h1.2.2 ++ h2.2.2 = _
          rw [a3, b2]; rfl
        · show h1.1 ++ h2.1 ++ h2.2.1 = s
          rw [List.append_assoc, b3, a2]
      · rintro ⟨vals, hf, e1, e2⟩
        obtain ⟨hh, rest, caps⟩ := h
        cases hf with
        | @text _ x y _ _ hl hf =>
          simp only at e1 e2
          refine ⟨(x, y ++ rest, []), ?_, (y, rest, caps), ?_, rfl⟩
          · rw [mem_chs]; exact ⟨by simpa using hl, by simpa using e2, rfl⟩
          · exact (ih hv' hi' hp'.1 _ _).2 ⟨vals, hf, e1, rfl⟩
    | var v b =>
      have hp' : Parted ps := by cases ps <;> exact hp
      rw [richEls, elemsRe, mem_seq]
      have hvar : varRe (richInfo v) = .cap v.name (altAll (exprsOf v)) := rfl
      rw [hvar]
      constructor
      · rintro ⟨h1, m1, h2, m2, rfl⟩
        rw [mem_cap] at m1
        obtain ⟨g, mg, rfl⟩ := m1
        rw [holds_lang v (hv v b (by simp))] at mg
        obtain ⟨a1, a2, a3⟩ := mg
        obtain ⟨vals, b1, b2, b3⟩ := (ih hv' hi' hp' _ _).1 m2
        refine ⟨(v, g.1) :: vals, .var a1 b1, ?_, ?_⟩
        · show (g.2.2 ++ [(v.name, g.1)]) ++ h2.2.2 = _
          rw [a3, b2]; rfl
        · show g.1 ++ h2.1 ++ h2.2.1 = s
          rw [List.append_assoc, b3, a2]
      · rintro ⟨vals, hf, e1, e2⟩
        obtain ⟨hh, rest, caps⟩ := h
        cases hf with
        | @var _ _ u y _ vs hl hf =>
          simp only at e1 e2
          refine ⟨(u, y ++ rest, [(v.name, u)]), ?_, (y, rest, capsOf vs), ?_, ?_⟩
          · rw [mem_cap]; exact ⟨(u, y ++ rest, []), (holds_lang v (hv v b (by simp)) _ _).2 ⟨hl, by simpa using e2, rfl⟩, rfl⟩
          · exact (ih hv' hi' hp' _ _).2 ⟨vs, hf, rfl, rfl⟩
          · rw [e1]; rfl

theorem lit_nl (t x : Str) (h : LitMatch True True t x) (ht : OneLined t) : '\n' ∉ x := by
  have hnl : ¬ (Blank '\n' ∨ isSpace '\n' = false) := by simp only [Blank]; decide
  induction h with
  | nil => simp
  | char c t x _ _ _ ih =>
    have := ih (fun c hc => ht c (by simp [hc]))
    simp only [List.mem_cons, not_or]
    refine ⟨?_, this⟩
    rintro rfl
    exact hnl (ht '\n' (by simp))
  | blankRun b b' t x _ _ hb' _ _ ih =>
    have := ih (fun c hc => ht c (by simp [hc]))
    simp only [List.mem_append, not_or]
    exact ⟨blank_noNL _ hb'.2, this⟩
  | digitRun b b' t x _ _ hb' _ _ ih =>
    have := ih (fun c hc => ht c (by simp [hc]))
    simp only [List.mem_append, not_or]
    refine ⟨fun hm => ?_, this⟩
    have := hb'.2 _ hm
    revert this; simp only [Digit]; decide

theorem fills_nl (ps : List RPiece) (x : Str) (vals : List (RVar × Str)) (h : Fills ps x vals)
    (ht : ∀ t, RPiece.text t ∈ ps → OneLined t) (hv : ∀ v b, RPiece.var v b ∈ ps → v.OK)
    (hi : ∀ e b, RPiece.ign e b ∈ ps → ∀ t, e = some t → LineExpr t) : '\n' ∉ x := by
  induction h with
  | nil => simp
  | text hl _ ih =>
    have := ih (fun t hm => ht t (by simp [hm])) (fun v b hm => hv v b (by simp [hm])) (fun e b hm => hi e b (by simp [hm]))
    have h2 := lit_nl _ _ hl (ht _ (by simp))
    simp [this, h2]
  | var hl _ ih =>
    have := ih (fun t hm => ht t (by simp [hm])) (fun v b hm => hv v b (by simp [hm])) (fun e b hm => hi e b (by simp [hm]))
    simp [this, holds_nl _ (hv _ _ (List.mem_cons_self ..)) _ hl]
  | ign hl _ ih =>
    have := ih (fun t hm => ht t (by simp [hm])) (fun v b hm => hv v b (by simp [hm])) (fun e b hm => hi e b (by simp [hm]))
    simp [this, ign_nl _ (hi _ _ (List.mem_cons_self ..)) _ hl]

theorem fills_vars (ps : List RPiece) (x : Str) (vals : List (RVar × Str)) (h : Fills ps x vals) : vals.map (·.1) = varsOf ps := by
  induction h with
  | nil => rfl
  | text _ _ ih => simpa [varsOf] using ih
  | var _ _ ih => simp [varsOf, ih]
  | ign _ _ ih => simpa [varsOf] using ih

/-- the expression of a line -/
def RichRe (l : RLine) : Re := lineRe false false l.indent (richEls l.pieces)

theorem richEls_noCut (ps : List RPiece) : ∀ e ∈ richEls ps, Elem.isCut e = false := by
  induction ps with
  | nil => simp [richEls]
  | cons p ps ih =>
    cases p with
    | text t =>
      intro e he
      simp only [richEls, List.mem_append, chs, List.mem_map] at he
      rcases he with ⟨c, _, rfl⟩ | he
      · rfl
      · exact ih e he
    | var v b =>
      intro e he
      simp only [richEls, List.mem_cons] at he
      rcases he with rfl | he
      · rfl
      · exact ih e he
    | ign x b =>
      intro e he
      simp only [richEls, List.mem_cons] at he
      rcases he with rfl | he
      · rfl
      · exact ih e he

theorem richRe_mem (ctx : LoadCtx) (l : RLine) (ho : l.OK ctx) (s : Str) (h : Re.Hit) :
    h ∈ run (RichRe l) s ↔ ∃ x b vals, Fills l.pieces x vals ∧ h.2.2 = capsOf vals ∧ (∀ c ∈ b, Blank c) ∧
      (c!"\n" <+: h.2.1 ∨ c!"\r\n" <+: h.2.1) ∧ h.1 = '\n' :: (l.indent ++ (x ++ b)) ∧ h.1 ++ h.2.1 = s := by
  unfold RichRe
  rw [mem_lineRe, cutElems_items _ _ (richEls_noCut l.pieces)]
  constructor
  · rintro ⟨h1, b, m1, m2, hb, hn, e1, e2, e3⟩
    rw [mem_rich l.pieces (fun v b h => (ho.var v b h).1) (fun e b h => (ho.ign e b h).1) ho.parted] at m1
    obtain ⟨vals, hf, hv, _⟩ := m1
    exact ⟨h1.1, b, vals, hf, by rw [e3, hv], hb, hn, e1, e2⟩
  · rintro ⟨x, b, vals, hf, hv, hb, hn, e1, e2⟩
    refine ⟨(x, b ++ h.2.1, h.2.2), b, ?_, rfl, hb, hn, e1, e2, rfl⟩
    rw [mem_rich l.pieces (fun v b h => (ho.var v b h).1) (fun e b h => (ho.ign e b h).1) ho.parted]
    exact ⟨vals, hf, hv, rfl⟩

/-! ## Readers of lines -/

/-- What the search needs to know about the expression of a line: `F t caps` says that it matches the text line `t` with these captures. -/
structure Reader (r : Re) (F : Str → List (Str × Str) → Prop) : Prop where
  sound : ∀ t rest, '\n' ∉ t → ∀ h ∈ run r ('\n' :: (t ++ '\n' :: rest)), F t h.2.2
  complete : ∀ t rest, '\n' ∉ t → ∀ c, F t c → ∃ h ∈ run r ('\n' :: (t ++ '\n' :: rest)), h.2.2 = c
  nl : ∀ s, ∀ h ∈ run r s, ∃ x, h.1 = '\n' :: x ∧ '\n' ∉ x
  more : ∀ s, ∀ h ∈ run r s, '\n' ∈ h.2.1

/-- the lines that fit, by captures -/
def CapFits (l : RLine) (t : Str) (c : List (Str × Str)) : Prop := ∃ vals, l.Fits t vals ∧ c = capsOf vals

theorem rich_reader (ctx : LoadCtx) (l : RLine) (ho : l.OK ctx) : Reader (RichRe l) (CapFits l) := by
  have hx : ∀ x v, Fills l.pieces x v → '\n' ∉ x := fun x v h => fills_nl _ x v h (fun t ht => (ho.text t ht).2) (fun v b h => (ho.var v b h).1) (fun e b h => (ho.ign e b h).1)
  refine ⟨?_, ?_, ?_, ?_⟩
  · intro t rest ht h hm
    rw [richRe_mem ctx l ho] at hm
    obtain ⟨x, b, vals, hr, hv, hb, hn, e1, e2⟩ := hm
    refine ⟨vals, ?_, hv⟩
    have hpre : '\n' ∉ l.indent ++ (x ++ b) := by simp [blank_noNL _ ho.indent, blank_noNL _ hb, hx x _ hr]
    rcases hn with ⟨r, e⟩ | ⟨r, e⟩
    · rw [e1, ← e] at e2
      simp only [List.cons_append, List.cons.injEq, true_and, List.nil_append, List.append_assoc] at e2
      obtain ⟨e3, _⟩ := nl_split (l.indent ++ (x ++ b)) t r rest hpre ht (by simpa using e2)
      exact ⟨x, b, [], hr, hb, Or.inl rfl, by rw [← e3]; simp⟩
    · rw [e1, ← e] at e2
      simp only [List.cons_append, List.cons.injEq, true_and, List.nil_append, List.append_assoc] at e2
      obtain ⟨e3, _⟩ := nl_split (l.indent ++ (x ++ b) ++ c!"\r") t r rest (by
        intro hm
        rcases List.mem_append.1 hm with hm | hm
        · exact hpre hm
        · revert hm; decide) ht (by simpa using e2)
      exact ⟨x, b, c!"\r", hr, hb, Or.inr rfl, by rw [← e3]; simp⟩
  · rintro t rest ht c ⟨vals, ⟨x, b, r, hr, hb, hre, rfl⟩, rfl⟩
    refine ⟨('\n' :: (l.indent ++ (x ++ b)), r ++ '\n' :: rest, capsOf vals), ?_, rfl⟩
    rw [richRe_mem ctx l ho]
    refine ⟨x, b, vals, hr, rfl, hb, ?_, rfl, by simp⟩
    rcases hre with rfl | rfl
    · exact Or.inl ⟨rest, rfl⟩
    · exact Or.inr ⟨rest, rfl⟩
  · intro s h hm
    rw [richRe_mem ctx l ho] at hm
    obtain ⟨x, b, vals, hr, _, hb, _, e1, _⟩ := hm
    refine ⟨_, e1, ?_⟩
    simp [blank_noNL _ ho.indent, blank_noNL _ hb, hx x _ hr]
  · intro s h hm
    rw [richRe_mem ctx l ho] at hm
    obtain ⟨x, b, vals, _, _, _, hn, _⟩ := hm
    rcases hn with ⟨r, e⟩ | ⟨r, e⟩ <;> rw [← e] <;> simp

/-! ## Texts of lines, cut at any place of a line -/

/-- lines, each after a newline, and then a newline and the beginning of a line -/
def nlCut : List Str → Str → Str
  | [], p => '\n' :: p
  | l :: ls, p => '\n' :: (l ++ nlCut ls p)

theorem nlCut_nil (lines : List Str) : nlCut lines [] = nlText lines := by
  induction lines with
  | nil => rfl
  | cons l ls ih => simp [nlCut, nlText, ih]

theorem nlCut_head (ls : List Str) (p : Str) : ∃ r, nlCut ls p = '\n' :: r := by cases ls <;> exact ⟨_, rfl⟩

theorem nlCut_drop (lines : List Str) (p : Str) (i : Nat) (hi : i ≤ lines.length) :
    (nlCut lines p).drop (posOf lines i) = nlCut (lines.drop i) p := by
  induction i generalizing lines with
  | zero => simp [posOf]
  | succ i ih =>
    cases lines with
    | nil => simp at hi
    | cons l ls =>
      have := ih ls (by simpa using hi)
      simp only [posOf, List.take_succ_cons, List.map_cons, List.sum_cons, List.drop_succ_cons]
      rw [← this, nlCut]
      have e : l.length + 1 + ((ls.take i).map (fun l => l.length + 1)).sum = (l.length + posOf ls i) + 1 := by simp [posOf]; omega
      rw [e, List.drop_succ_cons, List.drop_append]
      simp

theorem nlCut_pos (lines : List Str) (hl : ∀ l ∈ lines, '\n' ∉ l) (p : Str) (hp : '\n' ∉ p) (q : Nat) (x : Str)
    (h : (nlCut lines p).drop q = '\n' :: x) : ∃ i, i ≤ lines.length ∧ q = posOf lines i := by
  induction lines generalizing q with
  | nil =>
    cases q with
    | zero => exact ⟨0, Nat.le_refl _, rfl⟩
    | succ q =>
      simp only [nlCut, List.drop_succ_cons] at h
      exact absurd (List.mem_of_mem_drop (by rw [h]; simp)) hp
  | cons l ls ih =>
    cases q with
    | zero => exact ⟨0, by simp, rfl⟩
    | succ q =>
      simp only [nlCut, List.drop_succ_cons] at h
      by_cases hq : q < l.length
      · rw [List.drop_append_of_le_length (by omega), List.drop_eq_getElem_cons hq] at h
        injection h with h1 _
        exact absurd (List.getElem_mem hq) (by rw [h1]; exact hl l (by simp))
      · rw [List.drop_append, List.drop_eq_nil_of_le (by omega), List.nil_append] at h
        obtain ⟨i, hi, e⟩ := ih (fun l' h' => hl l' (by simp [h'])) _ h
        refine ⟨i + 1, by simpa using hi, ?_⟩
        simp only [posOf, List.take_succ_cons, List.map_cons, List.sum_cons] at e ⊢
        omega

/-- The matches of a line in a text are the lines that it reads. -/
theorem reader_finditer {r : Re} {F : Str → List (Str × Str) → Prop} (hr : Reader r F) (lines : List Str) (hl : ∀ t ∈ lines, '\n' ∉ t)
    (p : Str) (hp : '\n' ∉ p) :
    (∀ m ∈ finditer r (nlCut lines p), ∃ i t, lines[i]? = some t ∧ m.start = posOf lines i ∧ F t m.caps ∧
      m.start < m.stop ∧ m.stop ≤ m.start + 1 + t.length) ∧
    ∀ i t c, lines[i]? = some t → F t c → ∃ m ∈ finditer r (nlCut lines p), m.start = posOf lines i := by
  have at_line : ∀ i t, lines[i]? = some t → ∃ rest, (nlCut lines p).drop (posOf lines i) = '\n' :: (t ++ '\n' :: rest) := by
    intro i t hi
    obtain ⟨hlt, e⟩ := List.getElem?_eq_some_iff.1 hi
    rw [nlCut_drop lines p i (by omega), List.drop_eq_getElem_cons hlt, nlCut, e]
    obtain ⟨r, hr⟩ := nlCut_head (lines.drop (i + 1)) p
    exact ⟨r, by rw [hr]⟩
  constructor
  · intro m hm
    obtain ⟨_, h, tl, hrun, e1, e2⟩ := finditer_sound _ _ m hm
    have hmem : h ∈ run r ((nlCut lines p).drop m.start) := by rw [hrun]; simp
    obtain ⟨x, hx, hxn⟩ := hr.nl _ h hmem
    have hsp := run_split _ _ _ hmem
    rw [hx] at hsp
    obtain ⟨i, hi, ep⟩ := nlCut_pos lines hl p hp m.start _ hsp.symm
    by_cases hlt : i < lines.length
    · have hit := List.getElem?_eq_getElem hlt
      refine ⟨i, lines[i], hit, ep, ?_, by
        show m.start < m.start + m.text.length
        rw [e1, hx]; simp, ?_⟩
      · obtain ⟨rest, hre⟩ := at_line i lines[i] hit
        rw [ep, hre] at hmem
        rw [e2]
        exact hr.sound lines[i] rest (hl _ (List.getElem_mem hlt)) h hmem
      · obtain ⟨rest, hre⟩ := at_line i lines[i] hit
        rw [ep, hre] at hsp
        simp only [List.cons_append, List.cons.injEq, true_and] at hsp
        have hmore := hr.more _ h hmem
        -- the text of the match is a prefix of the line
        have hlen : x.length ≤ lines[i].length := by
          by_cases hc : x.length ≤ lines[i].length
          · exact hc
          · exfalso
            apply hxn
            have h1 : (x ++ h.2.1)[lines[i].length]? = (lines[i] ++ '\n' :: rest)[lines[i].length]? := by rw [hsp]
            rw [List.getElem?_append_left (by omega), List.getElem?_append_right (by omega)] at h1
            simp only [Nat.sub_self, List.getElem?_cons_zero] at h1
            exact List.mem_of_getElem? h1
        show m.start + m.text.length ≤ m.start + 1 + lines[i].length
        rw [e1, hx]
        simp only [List.length_cons]
        omega
    · exfalso
      have e : i = lines.length := by omega
      rw [ep, nlCut_drop lines p i hi, e, List.drop_length, nlCut] at hmem
      have h1 := run_split _ _ _ hmem
      rw [hx] at h1
      simp only [List.cons_append, List.cons.injEq, true_and] at h1
      exact hp (by rw [← h1]; simp [hr.more _ h hmem])
  · intro i t c hi hf
    obtain ⟨rest, hre⟩ := at_line i t hi
    have htn : '\n' ∉ t := hl t (List.mem_of_getElem? hi)
    obtain ⟨h, hm, _⟩ := hr.complete t rest htn c hf
    rw [← hre] at hm
    cases hrun : run r ((nlCut lines p).drop (posOf lines i)) with
    | nil => rw [hrun] at hm; cases hm
    | cons h0 tl =>
      obtain ⟨m, m1, m2, _, m4⟩ := finditer_nl r (nlCut lines p) (fun s h hm => hr.nl s h hm) (posOf lines i) h0 tl hrun
      exact ⟨m, m1, m2⟩

end TTP
