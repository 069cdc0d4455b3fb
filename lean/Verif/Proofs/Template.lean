import Verif.Spec.Template
import Verif.Proofs.Line2
import Verif.Proofs.Format
/-!
# Lemmas about the loading of templates
-/

namespace TTP
open Py Spec

/-! ## Lines that are left out -/

theorem untilClose_some (s : Str) (b r : Str) (h : untilClose s = some (b, r)) : s = b ++ c!"}}" ++ r := by
  induction s generalizing b r with
  | nil => simp [untilClose] at h
  | cons c cs ih =>
    unfold untilClose at h
    split at h
    · rename_i rest e
      simp only [Option.some.injEq, Prod.mk.injEq] at h
      obtain ⟨rfl, rfl⟩ := h
      exact e
    · rename_i c' cs' _ e
      injection e with e1 e2
      subst e1 e2
      cases hu : untilClose cs with
      | none => rw [hu] at h; cases h
      | some p =>
        rw [hu] at h
        simp only [Option.map_some, Option.some.injEq, Prod.mk.injEq] at h
        obtain ⟨rfl, rfl⟩ := h
        have := ih p.1 p.2 (by rw [hu])
        simp [this]
    · rename_i e; cases e

theorem untilClose_of (b r : Str) : (untilClose (b ++ c!"}}" ++ r)).isSome = true := by
  induction b with
  | nil => rfl
  | cons c b ih =>
    simp only [List.cons_append] at ih ⊢
    unfold untilClose
    split
    · rfl
    · rename_i c' cs' _ e
      injection e with e1 e2
      subst e1 e2
      rw [Option.isSome_map]
      exact ih
    · rename_i e; cases e

theorem openVar_some (s b r : Str) (h : openVar s = some (b, r)) : b ≠ [] ∧ s = c!"{{" ++ b ++ c!"}}" ++ r := by
  unfold openVar at h
  split at h
  · rename_i c cs
    cases hu : untilClose cs with
    | none => rw [hu] at h; cases h
    | some p =>
      rw [hu] at h
      simp only [Option.map_some, Option.some.injEq, Prod.mk.injEq] at h
      obtain ⟨rfl, rfl⟩ := h
      have := untilClose_some cs p.1 p.2 (by rw [hu])
      simp [this]
  · cases h

theorem elemVars_elemsAux (n : Nat) (s : Str) (hn : s.length ≤ n) : elemVars (elemsAux n s) ≠ [] ↔ HasVar s := by
  induction n generalizing s with
  | zero =>
    have : s = [] := List.length_eq_zero_iff.1 (by omega)
    subst this
    simp [elemsAux, elemVars, HasVar]
  | succ n ih =>
    cases s with
    | nil => simp [elemsAux, elemVars, HasVar]
    | cons c cs =>
      simp only [elemsAux]
      cases ho : openVar (c :: cs) with
      | some p =>
        obtain ⟨b, r⟩ := p
        obtain ⟨h1, h2⟩ := openVar_some _ _ _ ho
        simp only [elemVars, ne_eq, reduceCtorEq, not_false_eq_true, true_iff]
        exact ⟨[], b, r, h1, by simpa using h2⟩
      | none =>
        simp only [elemVars]
        rw [ih cs (by simp at hn; omega)]
        constructor
        · rintro ⟨a, b, d, h1, h2⟩
          exact ⟨c :: a, b, d, h1, by simp [h2]⟩
        · rintro ⟨a, b, d, h1, h2⟩
          cases a with
          | nil =>
            exfalso
            cases b with
            | nil => exact h1 rfl
            | cons x b =>
              have e : c :: cs = '{' :: '{' :: x :: (b ++ c!"}}" ++ d) := by rw [h2]; simp
              rw [e] at ho
              have := untilClose_of b d
              simp only [openVar, Option.map_eq_none_iff] at ho
              rw [ho] at this
              cases this
          | cons y a =>
            simp only [List.cons_append, List.cons.injEq] at h2
            exact ⟨a, b, d, h1, h2.2⟩

theorem elemVars_elems (s : Str) : elemVars (elems s) ≠ [] ↔ HasVar s := elemVars_elemsAux _ _ (Nat.le_refl _)

theorem dropWhile_eq_nil {p : Char → Bool} (s : Str) : s.dropWhile p = [] ↔ ∀ c ∈ s, p c = true := by
  induction s with
  | nil => simp
  | cons c cs ih =>
    by_cases h : p c = true
    · rw [List.dropWhile_cons_of_pos h, ih]; simp [h]
    · rw [List.dropWhile_cons_of_neg h]; simp [h]

theorem rstrip_spec (s : Str) : ∃ t, s = rstrip s ++ t ∧ ∀ c ∈ t, isSpace c = true := by
  refine ⟨(s.reverse.takeWhile isSpace).reverse, ?_, ?_⟩
  · unfold rstrip rstripP
    rw [← List.reverse_append, List.takeWhile_append_dropWhile, List.reverse_reverse]
  · intro c hc
    exact takeWhile_imp _ _ _ (List.mem_reverse.1 hc)

theorem lstrip_spec (s : Str) : ∃ t, s = t ++ lstrip s ∧ ∀ c ∈ t, isSpace c = true := by
  refine ⟨s.takeWhile isSpace, ?_, ?_⟩
  · unfold lstrip; rw [List.takeWhile_append_dropWhile]
  · intro c hc; exact takeWhile_imp _ _ _ hc

theorem rstrip_eq_nil (s : Str) : rstrip s = [] ↔ ∀ c ∈ s, isSpace c = true := by
  unfold rstrip rstripP
  rw [List.reverse_eq_nil_iff, dropWhile_eq_nil]
  simp

theorem strip_eq_nil (s : Str) : strip s = [] ↔ ∀ c ∈ s, isSpace c = true := by
  unfold strip
  rw [rstrip_eq_nil]
  constructor
  · intro h c hc
    obtain ⟨t, e, ht⟩ := lstrip_spec s
    rw [e] at hc
    rcases List.mem_append.1 hc with hc | hc
    · exact ht c hc
    · exact h c hc
  · intro h c hc
    obtain ⟨t, e, _⟩ := lstrip_spec s
    exact h c (by rw [e]; exact List.mem_append_right _ hc)

theorem hasVar_rstrip (s : Str) : HasVar (rstrip s) ↔ HasVar s := by
  obtain ⟨t, e, ht⟩ := rstrip_spec s
  constructor
  · rintro ⟨a, b, c, h1, h2⟩
    exact ⟨a, b, c ++ t, h1, by rw [e, h2]; simp⟩
  · rintro ⟨a, b, c, h1, h2⟩
    -- the closing braces are not white space
    have h3 : rstrip s = a ++ c!"{{" ++ b ++ c!"}}" ++ rstrip c := by
      rw [h2]
      have hb : isSpace '}' = false := by decide
      obtain ⟨u, eu, hu⟩ := rstrip_spec c
      cases hc : (rstrip c).reverse with
      | nil =>
        have : rstrip c = [] := by simpa using hc
        have hsp := (rstrip_eq_nil c).1 this
        rw [this]
        have := rstrip_append (a ++ c!"{{" ++ b ++ c!"}") '}' c hb hsp
        simpa using this
      | cons x w =>
        have hx : isSpace x = false := by
          have : (rstrip c).reverse = (c.reverse.dropWhile isSpace) := by simp [rstrip, rstripP]
          rw [this] at hc
          have := List.head?_dropWhile_not isSpace c.reverse
          rw [hc] at this
          simpa using this
        have hr : rstrip c = w.reverse ++ [x] := by
          have := congrArg List.reverse hc; simpa using this
        have := rstrip_append (a ++ c!"{{" ++ b ++ c!"}}" ++ w.reverse) x u hx hu
        rw [hr] at eu ⊢
        rw [eu]
        simpa using this
    exact ⟨a, b, rstrip c, h1, h3⟩

theorem isPrefixOf_iff' (p s : Str) : startsWith s p = true ↔ ∃ r, s = p ++ r := by
  unfold startsWith
  rw [List.isPrefixOf_iff_prefix]
  constructor
  · rintro ⟨r, rfl⟩; exact ⟨r, rfl⟩
  · rintro ⟨r, rfl⟩; exact ⟨r, rfl⟩

theorem lineSkipped_iff (l : Str) : lineSkipped l = true ↔ Meaningless l := by
  unfold lineSkipped Meaningless
  rw [Bool.or_eq_true, Bool.or_eq_true, List.isEmpty_iff, List.isEmpty_iff, strip_eq_nil, isPrefixOf_iff', or_assoc]
  have h3 : elemVars (elems (rstrip l)) = [] ↔ ¬ HasVar l := by
    rw [← hasVar_rstrip, ← elemVars_elems]; simp
  rw [h3]
  have h2 : (∃ r, lstrip l = c!"##" ++ r) ↔ (∃ a b, l = a ++ c!"##" ++ b ∧ ∀ c ∈ a, isSpace c = true) := by
    obtain ⟨t, e, ht⟩ := lstrip_spec l
    constructor
    · rintro ⟨r, hr⟩
      exact ⟨t, r, by rw [e, hr]; simp, ht⟩
    · rintro ⟨a, b, h1, h2⟩
      refine ⟨b, ?_⟩
      unfold lstrip
      rw [h1, List.append_assoc, dropWhile_all _ _ _ h2]
      rfl
  rw [h2]

theorem loadLines_same (ctx : LoadCtx) (dflt : Val) (a b : List Str) (h : SameLines a b) (d : Dict Key Val) :
    loadLines ctx dflt a d = loadLines ctx dflt b d := by
  induction h generalizing d with
  | nil => rfl
  | both l _ ih => simp only [loadLines]; split <;> simp only [ih]
  | left l hl _ ih => rw [loadLines, if_pos ((lineSkipped_iff l).2 hl), ih]
  | right l hl _ ih => rw [loadLines, if_pos ((lineSkipped_iff l).2 hl), ih]

theorem getRegexes_same (ctx : LoadCtx) (a : GAttrs) (tail : Bool) (s t : Option Str) (h : SameText s t) (g : GState) :
    getRegexes ctx a tail s g = getRegexes ctx a tail t g := by
  cases h with
  | none => rfl
  | some h => simp only [getRegexes, loadLines_same ctx a.dflt _ _ h]

/-! ## Tails -/

/-- What every reading of a text leaves: a dictionary of defaults is in the defaults, and defaults of start lines are noted. -/
def Settled (a : GAttrs) (g : GState) : Prop :=
  (∀ dd, a.dflt = .dict dd → Dict.update g.defaults dd = g.defaults ∧ (g.lines.start = [] → g.hasDefault = true)) ∧
  (startDefault g.lines.start g.defaults = true → g.hasDefault = true)

theorem update_self (d e : Dict Key Val) (h : ∀ k v, (k, v) ∈ e → Dict.get? d k = some v) : Dict.update d e = d := by
  induction e with
  | nil => rfl
  | cons a e ih =>
    obtain ⟨k, v⟩ := a
    rw [Dict.update_cons, Dict.set_get?_self d k v (h k v (by simp))]
    exact ih (fun k' v' hm => h k' v' (by simp [hm]))

theorem update_twice (d e : Dict Key Val) (he : Dict.WF e) : Dict.update (Dict.update d e) e = Dict.update d e := by
  apply update_self
  intro k v hm
  rw [Dict.get?_update _ _ he, Dict.get?_of_mem _ _ _ he hm]
  rfl

theorem getRegexes_settled (ctx : LoadCtx) (a : GAttrs) (hwf : ∀ dd, a.dflt = .dict dd → Dict.WF dd) (tail : Bool)
    (t : Option Str) (g g' : GState) (h : getRegexes ctx a tail t g = .ok g') : Settled a g' := by
  cases t with
  | none => cases h
  | some t =>
    simp only [getRegexes] at h
    rw [bind_ok_iff] at h
    obtain ⟨⟨rs, d⟩, _, h⟩ := h
    cases hd : a.dflt with
    | dict dd =>
      rw [hd] at h
      simp only [pure_ok, Except.ok.injEq] at h
      subst h
      refine ⟨fun dd' e => ?_, fun hs => by simp only [hs, Bool.or_true]⟩
      rw [hd] at e; cases e
      exact ⟨update_twice _ _ (hwf dd hd), fun e => by simp only at e; simp [e]⟩
    | _ =>
      rw [hd] at h
      simp only [pure_ok, Except.ok.injEq] at h
      subst h
      exact ⟨fun dd' e => (by rw [hd] at e; cases e), fun hs => by simp only [hs, Bool.or_true]⟩

theorem mem_splitlinesAux (s cur l : Str) (h : l ∈ Format.splitlinesAux cur s) : ∀ c ∈ l, c ∈ cur ∨ c ∈ s := by
  induction cur, s using Format.splitlinesAux.induct generalizing l with
  | case1 => simp [Format.splitlinesAux] at h
  | case2 cur hc =>
    simp only [Format.splitlinesAux, hc, if_false, List.mem_singleton] at h
    subst h; intro c hc; exact Or.inl hc
  | case3 cur cs ih =>
    simp only [Format.splitlinesAux, List.mem_cons] at h
    rcases h with rfl | h
    · intro c hc; exact Or.inl hc
    · intro c hc; rcases ih l h c hc with h | h
      · cases h
      · right; simp [h]
  | case4 cur c cs hne hb ih =>
    rw [Format.splitlinesAux] at h
    · rw [if_pos hb] at h
      rcases List.mem_cons.1 h with rfl | h
      · intro c hc; exact Or.inl hc
      · intro x hx; rcases ih l h x hx with h | h
        · cases h
        · right; simp [h]
    · exact hne
  | case5 cur c cs hne hb ih =>
    rw [Format.splitlinesAux] at h
    · rw [if_neg hb] at h
      intro x hx
      rcases ih l h x hx with h | h
      · rcases List.mem_append.1 h with h | h
        · exact Or.inl h
        · right; simp at h; simp [h]
      · right; simp [h]
    · exact hne

theorem mem_splitlines (s l : Str) (h : l ∈ Format.splitlines s) : ∀ c ∈ l, c ∈ s := by
  intro c hc
  rcases mem_splitlinesAux s [] l h c hc with h | h
  · cases h
  · exact h

theorem loadLines_blank (ctx : LoadCtx) (dflt : Val) (ls : List Str) (h : ∀ l ∈ ls, Meaningless l) (d : Dict Key Val) :
    loadLines ctx dflt ls d = .ok ([], d) := by
  induction ls with
  | nil => rfl
  | cons l ls ih =>
    rw [loadLines, if_pos ((lineSkipped_iff l).2 (h l (by simp)))]
    exact ih (fun l hl => h l (by simp [hl]))

theorem getRegexes_blank (ctx : LoadCtx) (a : GAttrs) (t : Str) (ht : strip t = []) (g : GState) (hs : Settled a g) :
    getRegexes ctx a true (some t) g = .ok g := by
  have hb : ∀ l ∈ Format.splitlines t, Meaningless l := fun l hl =>
    Or.inl (fun c hc => (strip_eq_nil t).1 ht c (mem_splitlines t l hl c hc))
  simp only [getRegexes, loadLines_blank ctx a.dflt _ hb, ok_bind, classify]
  obtain ⟨h1, h2⟩ := hs
  cases hd : a.dflt with
  | dict dd =>
    obtain ⟨h3, h4⟩ := h1 dd hd
    simp only [h3, pure_ok, Except.ok.injEq]
    cases hg : g with
    | mk lines defaults hasDefault =>
      rw [hg] at h2 h4
      simp only [GState.mk.injEq, true_and]
      cases hasDefault with
      | true => simp
      | false =>
        simp only [Bool.false_or]
        have e1 : lines.start.isEmpty = false := by
          cases hl : lines.start with
          | nil => exact absurd (h4 hl) (by simp)
          | cons => rfl
        have e2 : startDefault lines.start defaults = false := by
          cases hl : startDefault lines.start defaults with
          | false => rfl
          | true => exact absurd (h2 hl) (by simp)
        rw [e1, e2]; rfl
  | _ =>
    simp only [pure_ok, Except.ok.injEq]
    cases hg : g with
    | mk lines defaults hasDefault =>
      rw [hg] at h2
      simp only [GState.mk.injEq, true_and]
      cases hasDefault with
      | true => simp
      | false =>
        cases hl : startDefault lines.start defaults with
        | false => rfl
        | true => exact absurd (h2 hl) (by simp)

theorem readTail_settled (ctx : LoadCtx) (a : GAttrs) (tail : Option Str) (g : GState) (hs : Settled a g) :
    readTail ctx a tail g = getRegexes ctx a true tail g := by
  cases tail with
  | none => rfl
  | some t =>
    simp only [readTail]
    split
    · rename_i h; rw [getRegexes_blank ctx a t h g hs]; rfl
    · rfl

theorem groupAttr_dflt (ctx : LoadCtx) (pc : Str) (top : Bool) (i : Nat) (a a' : GAttrs) (n v : Str)
    (hw : ∀ k dd, (k, Val.dict dd) ∈ ctx.vars → Dict.WF dd) (h : groupAttr ctx pc top i a n v = .ok a')
    (ha : ∀ dd, a.dflt = .dict dd → Dict.WF dd) : ∀ dd, a'.dflt = .dict dd → Dict.WF dd := by
  unfold groupAttr at h
  split at h
  · simp only [pure_ok, Except.ok.injEq] at h; subst h; exact ha
  split at h
  · simp only [pure_ok, Except.ok.injEq] at h; subst h; split <;> exact ha
  split at h
  · simp only [pure_ok, Except.ok.injEq] at h; subst h; split <;> exact ha
  split at h
  · rw [bind_ok_iff] at h
    obtain ⟨p, _, h⟩ := h
    simp only [pure_ok, Except.ok.injEq] at h; subst h; exact ha
  split at h
  · simp only [pure_ok, Except.ok.injEq] at h; subst h
    intro dd e
    cases hg : Dict.get? ctx.vars v with
    | none => simp [hg] at e
    | some w =>
      simp only [hg, Option.getD_some] at e
      subst e
      exact hw v dd (Dict.mem_of_get? _ _ _ hg)
  split at h
  · rw [bind_ok_iff] at h
    obtain ⟨p, _, h⟩ := h
    rw [bind_ok_iff] at h
    obtain ⟨q, _, h⟩ := h
    simp only [pure_ok, Except.ok.injEq] at h; subst h; exact ha
  · rw [bind_ok_iff] at h
    obtain ⟨p, _, h⟩ := h
    cases p with
    | nil => cases h
    | cons f fs => simp only [pure_ok, Except.ok.injEq] at h; subst h; exact ha

theorem groupAttrs_dflt (ctx : LoadCtx) (pc : Str) (top : Bool) (i : Nat) (attrib : Dict Str Str) (a a' : GAttrs)
    (hw : ∀ k dd, (k, Val.dict dd) ∈ ctx.vars → Dict.WF dd) (h : groupAttrs ctx pc top i attrib a = .ok a')
    (ha : ∀ dd, a.dflt = .dict dd → Dict.WF dd) : ∀ dd, a'.dflt = .dict dd → Dict.WF dd := by
  induction attrib generalizing a with
  | nil => simp only [groupAttrs, pure_ok, Except.ok.injEq] at h; subst h; exact ha
  | cons nv rest ih =>
    obtain ⟨n, v⟩ := nv
    simp only [groupAttrs] at h
    rw [bind_ok_iff] at h
    obtain ⟨a1, h1, h2⟩ := h
    exact ih a1 h2 (groupAttr_dflt ctx pc top i a a1 n v hw h1 ha)

theorem anonymousPath_dflt (top : Bool) (i : Nat) (a : GAttrs) : (anonymousPath top i a).dflt = a.dflt := by
  unfold anonymousPath; split <;> rfl

mutual
theorem loadGroup_same (ctx : LoadCtx) (pc : Str) (hw : ∀ k dd, (k, Val.dict dd) ∈ ctx.vars → Dict.WF dd) (x y : Xml)
    (h : SameXml x y) (top : Bool) (path : List Str) (parent : Option GId) (index uid : Nat) :
    loadGroup ctx pc top path parent index uid x = loadGroup ctx pc top path parent index uid y := by
  cases h with
  | @mk _ _ attrib text text' cs cs' tail tail' ht hc htl =>
    simp only [loadGroup]
    cases ha : groupAttrs ctx pc top index attrib ⟨path, [], none, .str c!"_Not_Given_", false, [], [], []⟩ with
    | error e => rfl
    | ok a0 =>
      simp only [ok_bind]
      rw [getRegexes_same ctx _ false _ _ ht]
      have hdf : ∀ dd, (anonymousPath top index a0).dflt = .dict dd → Dict.WF dd := by
        rw [anonymousPath_dflt]
        exact groupAttrs_dflt ctx pc top index attrib _ a0 hw ha (fun dd e => by cases e)
      cases hg : getRegexes ctx (anonymousPath top index a0) false text' ⟨⟨[], [], []⟩, [], false⟩ with
      | error e => rfl
      | ok g0 =>
        simp only [ok_bind]
        rw [loadChildren_same ctx pc hw cs cs' hc (anonymousPath top index a0) hdf _ 0 (uid + 1) g0
          (getRegexes_settled ctx _ hdf false text' _ _ hg)]
theorem loadChildren_same (ctx : LoadCtx) (pc : Str) (hw : ∀ k dd, (k, Val.dict dd) ∈ ctx.vars → Dict.WF dd) (xs ys : List Xml)
    (h : SameXmls xs ys) (a : GAttrs) (hdf : ∀ dd, a.dflt = .dict dd → Dict.WF dd) (gid : GId) (index uid : Nat) (g : GState)
    (hs : Settled a g) :
    loadChildren ctx pc a gid index uid xs g = loadChildren ctx pc a gid index uid ys g := by
  cases h with
  | nil => rfl
  | @cons x y xs ys hx hxs =>
    rw [loadChildren, loadChildren, loadGroup_same ctx pc hw x y hx]
    have htail : SameText x.tail y.tail := by cases hx with | mk _ _ h => exact h
    rw [readTail_settled _ _ _ _ hs, readTail_settled _ _ _ _ hs, getRegexes_same ctx a true _ _ htail]
    cases loadGroup ctx pc false a.path (some gid) index uid y with
    | error e => rfl
    | ok c =>
      simp only [ok_bind]
      cases hg : getRegexes ctx a true y.tail g with
      | error e => rfl
      | ok g1 =>
        simp only [ok_bind]
        rw [loadChildren_same ctx pc hw xs ys hxs a hdf gid (index + 1) c.2 g1 (getRegexes_settled ctx a hdf true _ _ _ hg)]
end

/-! ## Paths -/

theorem pieces_split (p : Char) (o : Str) : Pieces p o (split [p] o) := by
  rw [split_char]
  exact ⟨splitC_ne_nil p o, join_splitC p o, splitC_no_sep p o⟩

theorem dropSlashes_spec (o : Str) : ∃ sl, o = sl ++ dropSlashes o ∧ (∀ c ∈ sl, c = '/') ∧ ¬ c!"/" <+: dropSlashes o := by
  refine ⟨o.takeWhile (· == '/'), ?_, ?_, ?_⟩
  · unfold dropSlashes; rw [List.takeWhile_append_dropWhile]
  · intro c hc
    have := takeWhile_imp _ _ _ hc
    simpa using this
  · unfold dropSlashes
    have := List.head?_dropWhile_not (· == '/') o
    cases h : o.dropWhile (· == '/') with
    | nil => simp
    | cons c cs =>
      rw [h] at this
      simp only [List.head?_cons] at this
      rintro ⟨r, e⟩
      simp only [List.singleton_append, List.cons.injEq] at e
      rw [← e.1] at this
      simp at this

theorem groupPath_spec (p : Char) (top : Bool) (parent : List Str) (o : Str) (ho : NameOK o) (path : List Str)
    (h : groupPath [p] parent o = .ok path) : PathOf p top parent (some o) path := by
  unfold groupPath at h
  have hsp : ∀ s, splitPath [p] s = .ok (split [p] s) := fun s => by simp [splitPath, pure_ok]
  have hpre : startsWith o c!"/" = true ↔ c!"/" <+: o := by unfold startsWith; rw [List.isPrefixOf_iff_prefix]
  split at h
  · rename_i h1
    obtain ⟨sl, e, hsl, hno⟩ := dropSlashes_spec o
    have hne : sl ≠ [] := by
      rintro rfl
      rw [List.nil_append] at e
      rw [← e] at hno
      exact hno (hpre.1 h1)
    split at h
    · rename_i h2
      simp only [hsp, ok_bind, pure_ok, Except.ok.injEq] at h
      subst h
      conv => arg 4; rw [e]
      exact .anonymous hne hsl hno h2 (pieces_split _ _)
    · rename_i h2
      split at h
      · rename_i h3
        simp only [pure_ok, Except.ok.injEq] at h
        subst h h3
        exact .root h2
      · rename_i h3
        simp only [hsp, Except.ok.injEq] at h
        subst h
        conv => arg 4; rw [e]
        refine .absolute hne hsl hno ?_ h2 (pieces_split _ _)
        intro e2
        rw [e2, List.append_nil] at e
        rcases ho.2 with h4 | ⟨c, hc, hc2⟩
        · exact h3 h4
        · exact hc2 (hsl c (by rw [← e]; exact hc))
  · rename_i h1
    simp only [hsp, ok_bind, pure_ok, Except.ok.injEq] at h
    subst h
    exact .relative (fun hp => h1 (hpre.2 hp)) (pieces_split _ _)

theorem join_dot_ne (ws : List Str) (h : ws ≠ []) (h2 : ws ≠ [[]]) : join c!"." ws ≠ [] := by
  cases ws with
  | nil => exact absurd rfl h
  | cons w ws =>
    cases ws with
    | nil =>
      simp only [join]
      intro e; exact h2 (by rw [e])
    | cons v vs => simp [join]

theorem pieces_ne (p : Char) (o : Str) (ws : List Str) (h : Pieces p o ws) (ho : o ≠ []) : ws ≠ [[]] := by
  rintro rfl
  exact ho (by simpa [join] using h.2.1.symm)

theorem pathOf_name (p : Char) (top : Bool) (parent : List Str) (o : Str) (ho : o ≠ []) (path : List Str)
    (h : PathOf p top parent (some o) path) : join c!"." path ≠ [] := by
  cases h with
  | relative _ hp =>
    rename_i ws _
    refine join_dot_ne _ (by simp [hp.1]) ?_
    intro e
    cases parent with
    | nil => exact pieces_ne p o _ hp ho (by simpa using e)
    | cons a as =>
      have := congrArg List.length e
      have h0 : ws ≠ [] := hp.1
      have h1 : 0 < ws.length := List.length_pos_iff.2 h0
      simp only [List.length_append, List.length_cons, List.length_nil] at this; omega
  | absolute _ _ _ hne _ hp => exact join_dot_ne _ hp.1 (pieces_ne p _ _ hp hne)
  | anonymous => exact join_dot_ne _ (by simp) (by simp)
  | root => simp [join]

theorem groupAttr_other (ctx : LoadCtx) (pc : Str) (top : Bool) (i : Nat) (a a' : GAttrs) (n v : Str) (hn : lower n ≠ c!"name")
    (h : groupAttr ctx pc top i a n v = .ok a') : a'.path = a.path ∧ a'.name = a.name ∧ a'.gid = a.gid := by
  unfold groupAttr at h
  split at h
  · simp only [pure_ok, Except.ok.injEq] at h; subst h; exact ⟨rfl, rfl, rfl⟩
  split at h
  · simp only [pure_ok, Except.ok.injEq] at h; subst h; split <;> exact ⟨rfl, rfl, rfl⟩
  split at h
  · simp only [pure_ok, Except.ok.injEq] at h; subst h; split <;> exact ⟨rfl, rfl, rfl⟩
  split at h
  · simp only [pure_ok, Except.ok.injEq] at h; subst h; exact ⟨rfl, rfl, rfl⟩
  split at h
  · rw [bind_ok_iff] at h
    obtain ⟨p, _, h⟩ := h
    rw [bind_ok_iff] at h
    obtain ⟨q, _, h⟩ := h
    simp only [pure_ok, Except.ok.injEq] at h; subst h; exact ⟨rfl, rfl, rfl⟩
  · rw [bind_ok_iff] at h
    obtain ⟨p, _, h⟩ := h
    cases p with
    | nil => cases h
    | cons f fs => simp only [pure_ok, Except.ok.injEq] at h; subst h; exact ⟨rfl, rfl, rfl⟩

theorem groupAttrs_none (ctx : LoadCtx) (pc : Str) (top : Bool) (i : Nat) (attrib : Dict Str Str) (a a' : GAttrs)
    (hn : NameAttr attrib none) (h : groupAttrs ctx pc top i attrib a = .ok a') :
    a'.path = a.path ∧ a'.name = a.name ∧ a'.gid = a.gid := by
  induction attrib generalizing a with
  | nil => simp only [groupAttrs, pure_ok, Except.ok.injEq] at h; subst h; exact ⟨rfl, rfl, rfl⟩
  | cons nv rest ih =>
    obtain ⟨n, v⟩ := nv
    simp only [groupAttrs] at h
    rw [bind_ok_iff] at h
    obtain ⟨a1, h1, h2⟩ := h
    simp only [NameAttr, List.filter_eq_nil_iff] at hn
    have hnn : lower n ≠ c!"name" := by
      have := hn (n, v) (by simp)
      simpa using this
    obtain ⟨b1, b2, b3⟩ := groupAttr_other ctx pc top i a a1 n v hnn h1
    obtain ⟨c1, c2, c3⟩ := ih a1 (by simp only [NameAttr, List.filter_eq_nil_iff]; exact fun x hx => hn x (by simp [hx])) h2
    exact ⟨c1.trans b1, c2.trans b2, c3.trans b3⟩

theorem groupAttrs_some (ctx : LoadCtx) (pc : Str) (top : Bool) (i : Nat) (attrib : Dict Str Str) (a a' : GAttrs) (o : Str)
    (hn : NameAttr attrib (some o)) (h : groupAttrs ctx pc top i attrib a = .ok a') :
    groupPath pc a.path o = .ok a'.path ∧ a'.name = join c!"." a'.path ∧ a'.gid = some (join c!"." a'.path, i) := by
  induction attrib generalizing a with
  | nil => obtain ⟨k, hk⟩ := hn; cases hk
  | cons nv rest ih =>
    obtain ⟨n, v⟩ := nv
    simp only [groupAttrs] at h
    rw [bind_ok_iff] at h
    obtain ⟨a1, h1, h2⟩ := h
    obtain ⟨k, hk⟩ := hn
    by_cases hnn : lower n = c!"name"
    · rw [List.filter_cons_of_pos (by simpa using hnn)] at hk
      injection hk with e1 e2
      cases e1
      obtain ⟨c1, c2, c3⟩ := groupAttrs_none ctx pc top i rest a1 a' e2 h2
      unfold groupAttr at h1
      rw [hnn] at h1
      simp only [show (c!"name" = c!"method") = False from by decide, show (c!"name" = c!"input") = False from by decide,
        show (c!"name" = c!"output") = False from by decide, if_false, if_true] at h1
      rw [bind_ok_iff] at h1
      obtain ⟨p, hp, h1⟩ := h1
      simp only [pure_ok, Except.ok.injEq] at h1
      subst h1
      simp only at c1 c2 c3
      exact ⟨by rw [hp, c1], by rw [c2, c1], by rw [c3, c1]⟩
    · rw [List.filter_cons_of_neg (by simpa using hnn)] at hk
      obtain ⟨b1, _, _⟩ := groupAttr_other ctx pc top i a a1 n v hnn h1
      obtain ⟨c1, c2, c3⟩ := ih a1 ⟨k, hk⟩ h2
      exact ⟨by rw [← c1, b1], c2, c3⟩

mutual
theorem loadGroup_placed (ctx : LoadCtx) (p : Char) (x : Xml) (hx : NamesOK x) (top : Bool) (path : List Str) (parent : Option GId)
    (index uid : Nat) (l : Loaded) (uid' : Nat) (h : loadGroup ctx [p] top path parent index uid x = .ok (l, uid')) :
    Placed p top path parent index x l.grp := by
  cases hx with
  | @mk t attrib text cs tail nm hnm hok hcs =>
    simp only [loadGroup] at h
    rw [bind_ok_iff] at h
    obtain ⟨a0, ha, h⟩ := h
    rw [bind_ok_iff] at h
    obtain ⟨g0, hg, h⟩ := h
    rw [bind_ok_iff] at h
    obtain ⟨⟨gs, g, u⟩, hc, h⟩ := h
    simp only [pure_ok, Except.ok.injEq, Prod.mk.injEq] at h
    obtain ⟨rfl, rfl⟩ := h
    have hpl := loadChildren_placed ctx p cs hcs _ _ _ _ _ _ _ _ hc
    cases nm with
    | none =>
      obtain ⟨b1, b2, b3⟩ := groupAttrs_none ctx [p] top index attrib _ a0 hnm ha
      simp only at b1 b2 b3
      have he : anonymousPath top index a0 = { a0 with
          path := if top then [c!"_anonymous_*"] else a0.path,
          name := join c!"." (if top then [c!"_anonymous_*"] else a0.path),
          gid := some (join c!"." (if top then [c!"_anonymous_*"] else a0.path) ++ c!"._anonymous_", index) } := by
        unfold anonymousPath; rw [if_pos b2]
      refine .mk none hnm ?_ rfl ?_ hpl
      · simp only [he, b1]
        cases top with
        | true => exact .noName rfl
        | false => exact .noNameChild rfl
      · simp only [he, Option.getD_some, if_true]
    | some o =>
      obtain ⟨b1, b2, b3⟩ := groupAttrs_some ctx [p] top index attrib _ a0 o hnm ha
      simp only at b1 b2 b3
      have hpath := groupPath_spec p top path o (hok o rfl) _ b1
      have hne := pathOf_name p top path o (hok o rfl).1 _ hpath
      have he : anonymousPath top index a0 = a0 := by
        unfold anonymousPath; rw [if_neg (by rw [b2]; exact hne)]
      refine .mk (some o) hnm ?_ rfl ?_ hpl
      · simp only [he]; exact hpath
      · simp only [he, b3]; simp
theorem loadChildren_placed (ctx : LoadCtx) (p : Char) (xs : List Xml) (hx : NamesAllOK xs) (a : GAttrs) (gid : GId)
    (index uid : Nat) (g : GState) (gs : List Grp) (g' : GState) (uid' : Nat)
    (h : loadChildren ctx [p] a gid index uid xs g = .ok (gs, g', uid')) : PlacedAll p a.path gid index xs gs := by
  cases hx with
  | nil =>
    simp only [loadChildren, pure_ok, Except.ok.injEq, Prod.mk.injEq] at h
    obtain ⟨rfl, _, _⟩ := h
    exact .nil
  | @cons x xs h1 h2 =>
    simp only [loadChildren] at h
    rw [bind_ok_iff] at h
    obtain ⟨⟨c, u1⟩, hc, h⟩ := h
    rw [bind_ok_iff] at h
    obtain ⟨g1, hg, h⟩ := h
    rw [bind_ok_iff] at h
    obtain ⟨⟨cs, g2, u2⟩, hcs, h⟩ := h
    simp only [pure_ok, Except.ok.injEq, Prod.mk.injEq] at h
    obtain ⟨rfl, _, _⟩ := h
    exact .cons (loadGroup_placed ctx p x h1 _ _ _ _ _ _ _ hc) (loadChildren_placed ctx p xs h2 _ _ _ _ _ _ _ _ hcs)
end

end TTP
