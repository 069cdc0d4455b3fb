import Verif.Spec.N2g
import Verif.Props.Outputs
/-!
# Diagrams of results (C168)
-/

namespace TTP
namespace N2g
open Py Spec

theorem kwNames_iff (d : List (Key × Val)) (kw : List (Str × Val)) : kwNames d = .ok kw ↔ d = kw.map (fun p => (Key.s p.1, p.2)) := by
  induction d generalizing kw with
  | nil =>
    constructor
    · intro h; cases h; rfl
    · intro h
      cases kw with
      | nil => rfl
      | cons _ _ => cases h
  | cons p r ih =>
    obtain ⟨k, v⟩ := p
    cases k with
    | i n =>
      constructor
      · intro h; cases h
      · intro h
        cases kw with
        | nil => cases h
        | cons _ _ => simp at h
    | s k =>
      unfold kwNames
      rw [bind_ok_iff _ _ _]
      constructor
      · rintro ⟨t, h1, h2⟩
        cases h2
        rw [(ih t).1 h1]; rfl
      · intro h
        cases kw with
        | nil => cases h
        | cons q t =>
          simp only [List.map_cons, List.cons.injEq, Prod.mk.injEq, Key.s.injEq] at h
          obtain ⟨⟨h1, h2⟩, h3⟩ := h
          obtain ⟨q1, q2⟩ := q
          cases h1; cases h2
          exact ⟨t, (ih t).2 h3, rfl⟩

theorem kwargsOf_iff (v : Val) (kw : Dict Str Val) : kwargsOf v = .ok kw ↔ v = .dict (kw.map (fun p => (Key.s p.1, p.2))) := by
  cases v with
  | dict d =>
    show kwNames d = .ok kw ↔ _
    rw [kwNames_iff]
    constructor
    · intro h; rw [h]
    · intro h; cases h; rfl
  | _ => constructor <;> intro h <;> cases h

theorem opt_iff {attrs : Dict Str Val} {name : Str} {dflt v : Val} : OptionIs attrs name dflt v ↔ opt attrs name dflt = v := by
  unfold OptionIs opt
  cases Dict.get? attrs name with
  | none => simp [eq_comm]
  | some w => simp

theorem pathArg_of {v : Val} {ns : List Str} (h : PathIs v ns) : OutFn.pathArg v = .ok ns := by
  cases h with
  | names => exact MatchFn.allStrs_map ns
  | text s => show Except.ok (Format.pathOf s) = _; unfold Format.pathOf; rw [split_char]

theorem drawAll_iff {D : Type} (L : Lib D) (attrs : Dict Str Val) (ns : List Str) (f : D → Val → Dict Str Val → PyM D) (kw : Dict Str Val)
    (hp : OutFn.pathArg (opt attrs c!"path" (.list [])) = .ok ns) (hf : methodOf L (opt attrs c!"method" (.str c!"from_list")) = .ok f)
    (hk : kwargsOf (opt attrs c!"method_kwargs" (.dict [])) = .ok kw) : ∀ (rs : List Val) (d e : D),
    drawAll L attrs d rs = .ok e ↔ ∃ items, All2 (Leads ns) rs items ∧ Drawn f kw d items e := by
  intro rs
  induction rs with
  | nil =>
    intro d e
    constructor
    · intro h; cases h; exact ⟨[], .nil, .nil⟩
    · rintro ⟨items, h1, h2⟩
      cases h1; cases h2; rfl
  | cons r rs ih =>
    intro d e
    unfold drawAll drawOne
    rw [hp, hf, hk]
    simp only [ok_bind]
    rw [bind_ok_iff _ _ _]
    constructor
    · rintro ⟨d', h1, h2⟩
      rw [bind_ok_iff _ _ _] at h1
      obtain ⟨w, h1, h3⟩ := h1
      obtain ⟨items, h4, h5⟩ := (ih d' e).1 h2
      exact ⟨w :: items, .cons ((Props.C77_traverse_strict ns r w).1 h1) h4, .cons h3 h5⟩
    · rintro ⟨items, h1, h2⟩
      cases h1 with
      | @cons _ w _ items h1 h3 =>
        cases h2 with
        | @cons _ d' _ _ _ h4 h5 =>
          exact ⟨d', by rw [(Props.C77_traverse_strict ns r w).2 h1, ok_bind, h4], (ih d' e).2 ⟨items, h3, h5⟩⟩

end N2g
end TTP

namespace Props
open Py TTP Spec TTP.N2g

/-- **C168**: the formatter `n2g` makes one diagram of the kind that is asked for in any letter case (yEd if none is), with the given treatment of double
nodes and links (`skip` if none), hands it, with the method and arguments that are given, what the path leads to from each result - in order, a
dictionary is one result -, lays it out if asked to, and returns its text. It returns no text if one of these steps fails. -/
theorem C168_diagram {D : Type} (L : Lib D) (attrs : Dict Str Val) (m : Str) (k : Drawing) (path method kwargs algo nodes links : Val) (ns : List Str)
    (name : Str) (f : D → Val → Dict Str Val → PyM D) (kw : Dict Str Val) (data : Val) (results : List Val) (v : Val)
    (hm : OptionIs attrs c!"module" (.str c!"yed") (.str m)) (hk : (lower m = c!"yed" ∧ k = .yed) ∨ (lower m = c!"drawio" ∧ k = .drawio))
    (hi : L.installed k = true)
    (hp : OptionIs attrs c!"path" (.list []) path) (hpn : PathIs path ns)
    (hn : OptionIs attrs c!"method" (.str c!"from_list") method) (hnf : method = .str name ∧ L.method name = some f)
    (hw : OptionIs attrs c!"method_kwargs" (.dict []) kwargs) (hwk : kwargs = .dict (kw.map (fun p => (Key.s p.1, p.2))))
    (ha : OptionIs attrs c!"algo" .none algo)
    (hnd : OptionIs attrs c!"node_duplicates" (.str c!"skip") nodes) (hld : OptionIs attrs c!"link_duplicates" (.str c!"skip") links)
    (hd : data = .list results ∨ ∃ d, data = .dict d ∧ results = [data]) :
    n2g L attrs data = .ok v ↔ ∃ (items : List Val) (d0 d1 d2 : D), All2 (Leads ns) results items ∧ L.create k nodes links = .ok d0 ∧
      Drawn f kw d0 items d1 ∧ (if algo.truthy then L.layout d1 algo = .ok d2 else d2 = d1) ∧ L.dump d2 = .ok v := by
  rw [opt_iff] at hm hp hn hw ha hnd hld
  have e1 := pathArg_of hpn
  rw [← hp] at e1
  have e2 : methodOf L (opt attrs c!"method" (.str c!"from_list")) = .ok f := by
    rw [hn, hnf.1]; unfold methodOf; dsimp only; rw [hnf.2]; rfl
  have e3 := (kwargsOf_iff kwargs kw).2 hwk
  rw [← hw] at e3
  have hdr : drawing m = some k := by
    rcases hk with ⟨h, rfl⟩ | ⟨h, rfl⟩
    · unfold drawing; rw [if_pos h]
    · unfold drawing; rw [if_neg (by rw [h]; decide), if_pos h]
  have hrs : resultsOf data = .ok results := by
    rcases hd with rfl | ⟨d, rfl, rfl⟩ <;> rfl
  have e4 : n2g L attrs data = diagram L k attrs data := by
    unfold n2g
    rw [hm]
    show (match drawing m with | none => _ | some k => _) = _
    rw [hdr]
    show (if L.installed k = true then _ else _) = _
    rw [if_pos hi]
  rw [e4]
  unfold diagram
  rw [hnd, hld, hrs, ha]
  rw [bind_ok_iff _ _ _]
  simp only [ok_bind]
  constructor
  · rintro ⟨d0, h0, h⟩
    rw [bind_ok_iff _ _ _] at h
    obtain ⟨d1, h1, h⟩ := h
    rw [bind_ok_iff _ _ _] at h
    obtain ⟨d2, h2, h⟩ := h
    obtain ⟨items, h3, h4⟩ := (drawAll_iff L attrs ns f kw e1 e2 e3 results d0 d1).1 h1
    refine ⟨items, d0, d1, d2, h3, h0, h4, ?_, h⟩
    unfold layOut at h2
    by_cases ht : algo.truthy = true
    · rw [if_pos ht] at h2 ⊢; exact h2
    · rw [if_neg ht] at h2 ⊢; cases h2; rfl
  · rintro ⟨items, d0, d1, d2, h3, h0, h4, h2, h⟩
    refine ⟨d0, h0, ?_⟩
    rw [(drawAll_iff L attrs ns f kw e1 e2 e3 results d0 d1).2 ⟨items, h3, h4⟩, ok_bind]
    unfold layOut
    by_cases ht : algo.truthy = true
    · rw [if_pos ht] at h2 ⊢; rw [h2, ok_bind, h]
    · rw [if_neg ht] at h2 ⊢; subst h2; exact h

/-- **C168** (no diagram): if another module is named, or the library is not there, the results are returned as they are. -/
theorem C168_no_diagram {D : Type} (L : Lib D) (attrs : Dict Str Val) (m : Str) (data : Val) (hm : OptionIs attrs c!"module" (.str c!"yed") (.str m))
    (h : (lower m ≠ c!"yed" ∨ L.installed .yed = false) ∧ (lower m ≠ c!"drawio" ∨ L.installed .drawio = false)) : n2g L attrs data = .ok data := by
  rw [opt_iff] at hm
  unfold n2g
  rw [hm]
  show (match drawing m with | none => _ | some k => _) = _
  unfold drawing
  by_cases h1 : lower m = c!"yed"
  · rw [if_pos h1]
    have := h.1.resolve_left (fun h => h h1)
    show (if L.installed .yed = true then _ else _) = _
    rw [this]; rfl
  · rw [if_neg h1]
    by_cases h2 : lower m = c!"drawio"
    · rw [if_pos h2]
      have := h.2.resolve_left (fun h => h h2)
      show (if L.installed .drawio = true then _ else _) = _
      rw [this]; rfl
    · rw [if_neg h2]; rfl

namespace Ex
/-- a library whose diagrams are lists of what they were given -/
def n2gLib : Lib (List Val) where
  installed k := k == .yed
  create _ a b := pure [a, b]
  method n := if n = c!"from_list" then some (fun d v _ => pure (d ++ [v])) else none
  layout d a := pure (d ++ [a])
  dump d := pure (.list d)
end Ex

/-- two results, a path, an algorithm; the hypotheses are met and the parts are as expected -/
example : n2g Ex.n2gLib [(c!"path", .str c!"a . b"), (c!"algo", .str c!"kk"), (c!"module", .str c!"yEd")]
    (.list [.dict [(.s c!"a", .dict [(.s c!"b", .int 1)])], .list [.dict [(.s c!"a", .dict [(.s c!"b", .int 2)])]]]) =
    .ok (.list [.str c!"skip", .str c!"skip", .int 1, .list [.int 2], .str c!"kk"]) :=
  (C168_diagram Ex.n2gLib _ c!"yEd" .yed _ _ _ (.str c!"kk") _ _ [c!"a", c!"b"] c!"from_list" (fun d v _ => pure (d ++ [v])) [] _ _ _ (.inl rfl) (.inl ⟨by decide, rfl⟩) rfl (.inl rfl)
    (.text c!"a . b") (.inr ⟨rfl, rfl⟩) ⟨rfl, rfl⟩ (.inr ⟨rfl, rfl⟩) rfl (.inl rfl) (.inr ⟨rfl, rfl⟩) (.inr ⟨rfl, rfl⟩) (.inl rfl)).2
    ⟨[.int 1, .list [.int 2]], _, _, _, .cons (.dict rfl) (.cons ((C77_traverse_strict _ _ _).1 (by decide)) .nil), rfl, .cons rfl (.cons rfl .nil), (by rw [if_pos (by decide)]; rfl), rfl⟩
/-- draw.io is not installed in this library -/
example : n2g Ex.n2gLib [(c!"module", .str c!"DrawIO")] (.int 1) = .ok (.int 1) :=
  C168_no_diagram _ _ c!"DrawIO" _ (.inl rfl) ⟨.inl (by decide), .inr rfl⟩

end Props
