import Verif.Proofs.Template2
/-!
# C79 - C84: how groups are loaded from a template

`loadGroups ctx pathchar 0 0 xs` loads the `<group>` elements `xs` of a template; `ctx` has the template variables, the patterns, the
group functions, and Python's evaluation of arguments. `loadGroup` loads one element, for a top group or a child.
-/

namespace Props
open Py Spec TTP

namespace Ex

/-- arguments are one text -/
def ctx0 : LoadCtx := ⟨[(c!"dd", .dict [(.s c!"mtu", .str c!"9000")])], fun _ => none, fun s => some ([.str s], []), fun _ => none,
  fun _ => false⟩

/-- text with an element -/
def xmlI (text : Str) (cs : List Xml) : Xml := .mk c!"group" [(c!"name", c!"interfaces*")] (some text) cs (some c!"\n")

/-- is there a result -/
def isOk {α : Type} (x : PyM α) : Bool :=
  match x with
  | .ok _ => true
  | .error _ => false

theorem ok_of {α : Type} (x : PyM α) (h : isOk x = true) : ∃ a, x = .ok a := by
  cases x with
  | ok a => exact ⟨a, rfl⟩
  | error e => cases h

theorem ctx0_wf : ∀ k dd, (k, Val.dict dd) ∈ ctx0.vars → Dict.WF dd := by
  intro k dd h
  simp only [ctx0, List.mem_singleton, Prod.mk.injEq, Val.dict.injEq] at h
  rw [h.2]
  unfold Dict.WF; decide

end Ex

/-! ## C79 -/

/-- C79. Blank lines, comments and lines without a variable make no difference: templates whose groups differ only in such lines
(anywhere: before, between and after the lines of a group or of its children) load to the same groups, or fail alike. The
template variables are proper dictionaries. -/
theorem C79_meaningless_lines (ctx : LoadCtx) (pathchar : Str) (hw : ∀ k dd, (k, Val.dict dd) ∈ ctx.vars → Dict.WF dd)
    (xs ys : List Xml) (h : SameXmls xs ys) (index uid : Nat) :
    loadGroups ctx pathchar index uid xs = loadGroups ctx pathchar index uid ys := by
  induction xs generalizing ys index uid with
  | nil => cases h; rfl
  | cons x xs ih =>
    cases h with
    | @cons _ y _ ys h1 h2 =>
      simp only [loadGroups, loadGroup_same ctx pathchar hw x y h1]
      cases loadGroup ctx pathchar true [] none index uid y with
      | error e => rfl
      | ok p => simp only [ok_bind, ih ys h2]

/-- C79 ends at the missing text: a group without any text before its first child, and a child without any text after it, raise. -/
theorem C79_no_text_raises (ctx : LoadCtx) (pathchar : Str) (top : Bool) (path : List Str) (parent : Option GId) (index uid : Nat)
    (t : Str) (attrib : Dict Str Str) (cs : List Xml) (tail : Option Str) (l : Loaded × Nat) :
    loadGroup ctx pathchar top path parent index uid (.mk t attrib none cs tail) ≠ .ok l := by
  intro h
  simp only [loadGroup] at h
  rw [bind_ok_iff] at h
  obtain ⟨_, _, h⟩ := h
  rw [bind_ok_iff] at h
  obtain ⟨_, hg, _⟩ := h
  cases hg

theorem C79_no_tail_raises (ctx : LoadCtx) (pathchar : Str) (top : Bool) (path : List Str) (parent : Option GId) (index uid : Nat)
    (t : Str) (attrib : Dict Str Str) (text : Option Str) (pre post : List Xml) (x : Xml) (hx : x.tail = none) (tail : Option Str)
    (l : Loaded × Nat) :
    loadGroup ctx pathchar top path parent index uid (.mk t attrib text (pre ++ x :: post) tail) ≠ .ok l := by
  have main : ∀ (pre : List Xml) (a : GAttrs) (gid : GId) (i u : Nat) (g : GState) r,
      loadChildren ctx pathchar a gid i u (pre ++ x :: post) g ≠ .ok r := by
    intro pre
    induction pre with
    | nil =>
      intro a gid i u g r h
      simp only [List.nil_append, loadChildren] at h
      rw [bind_ok_iff] at h
      obtain ⟨_, _, h⟩ := h
      rw [bind_ok_iff] at h
      obtain ⟨_, hg, _⟩ := h
      rw [hx] at hg
      cases hg
    | cons y pre ih =>
      intro a gid i u g r h
      simp only [List.cons_append, loadChildren] at h
      rw [bind_ok_iff] at h
      obtain ⟨_, _, h⟩ := h
      rw [bind_ok_iff] at h
      obtain ⟨_, _, h⟩ := h
      rw [bind_ok_iff] at h
      obtain ⟨p, hp, _⟩ := h
      exact ih _ _ _ _ _ p hp
  intro h
  simp only [loadGroup] at h
  rw [bind_ok_iff] at h
  obtain ⟨_, _, h⟩ := h
  rw [bind_ok_iff] at h
  obtain ⟨_, _, h⟩ := h
  rw [bind_ok_iff] at h
  obtain ⟨p, hp, _⟩ := h
  exact main _ _ _ _ _ _ p hp

/-- a comment, a blank line and a line without variables -/
example : SameXmls [Ex.xmlI c!"\ninterface {{ name }}\n mtu {{ mtu }}\n" []]
    [Ex.xmlI c!"\n ## interfaces {{ x }}\ninterface {{ name }}\n\t\nexit\n mtu {{ mtu }}" []] := by
  have e1 : Format.splitlines c!"\ninterface {{ name }}\n mtu {{ mtu }}\n" = [[], c!"interface {{ name }}", c!" mtu {{ mtu }}"] := by decide
  have e2 : Format.splitlines c!"\n ## interfaces {{ x }}\ninterface {{ name }}\n\t\nexit\n mtu {{ mtu }}" =
    [[], c!" ## interfaces {{ x }}", c!"interface {{ name }}", c!"\t", c!"exit", c!" mtu {{ mtu }}"] := by decide
  refine .cons (.mk (.some ?_) .nil (.some ?_)) .nil
  · rw [e1, e2]
    refine .both _ (.right _ ?_ (.both _ (.right _ ?_ (.right _ ?_ (.both _ .nil)))))
    · exact Or.inr (Or.inl ⟨c!" ", c!" interfaces {{ x }}", rfl, by decide⟩)
    · exact Or.inl (by decide)
    · refine Or.inr (Or.inr ?_)
      rintro ⟨a, b, c, _, h⟩
      have : '{' ∈ c!"exit" := by rw [h]; simp
      exact absurd this (by decide)
  · exact .both _ .nil

example : Ex.isOk (loadGroups Ex.ctx0 c!"." 0 0 [Ex.xmlI c!"\ninterface {{ name }}\n mtu {{ mtu }}\n" []]) = true := by decide +kernel

/-! ## C80 -/

/-- C80. Every group of a template, at any depth, saves to the path that its name tells: a relative name continues the path of the
parent, a name with a slash at the beginning is a path of its own, a group without a name saves where its parent does, a top
group without a name into the list `_anonymous_`. Its identity is made of the path and its position among its siblings.
`Placed` says so. The path character is one character. -/
theorem C80_paths_of_groups (ctx : LoadCtx) (p : Char) (xs : List Xml) (hx : NamesAllOK xs) (index uid : Nat) (gs : List TopGroup)
    (h : loadGroups ctx [p] index uid xs = .ok gs) :
    gs.length = xs.length ∧ ∀ i x g, xs[i]? = some x → gs[i]? = some g →
      g.index = index + i ∧ Placed p true [] none (index + i) x g.grp := by
  induction xs generalizing index uid gs with
  | nil =>
    simp only [loadGroups, pure_ok, Except.ok.injEq] at h
    subst h
    exact ⟨rfl, by simp⟩
  | cons x xs ih =>
    cases hx with
    | cons h1 h2 =>
      simp only [loadGroups] at h
      rw [bind_ok_iff] at h
      obtain ⟨⟨g, u⟩, hg, h⟩ := h
      rw [bind_ok_iff] at h
      obtain ⟨gs', hgs, h⟩ := h
      simp only [pure_ok, Except.ok.injEq] at h
      subst h
      obtain ⟨i1, i2⟩ := ih h2 (index + 1) u gs' hgs
      refine ⟨by simp [i1], ?_⟩
      intro i y g' e1 e2
      cases i with
      | zero =>
        simp only [List.getElem?_cons_zero, Option.some.injEq] at e1 e2
        subst e1; subst e2
        exact ⟨rfl, loadGroup_placed ctx p x h1 _ _ _ _ _ _ _ hg⟩
      | succ i =>
        simp only [List.getElem?_cons_succ] at e1 e2
        have := i2 i y g' e1 e2
        have e : index + (i + 1) = index + 1 + i := by omega
        rw [e]; exact this

/-- the path and the identity of a group -/
def pathsOf : Grp → Nat → List (List Str × GId)
  | _, 0 => []
  | .mk info _ _ _ _ cs, n + 1 => (info.path, info.gid) :: (cs.map (fun c => pathsOf c n)).flatten

/-- a group with a relative, an absolute, and no name inside -/
def Ex.xmlNested : Xml := Ex.xmlI c!"\ninterface {{ name }}\n"
  [.mk c!"group" [(c!"name", c!"ip.v4*")] (some c!" ip {{ ip }}\n") [] (some c!"\n"),
   .mk c!"group" [(c!"name", c!"/all.descr")] (some c!" description {{ d }}\n") [] (some c!"\n"),
   .mk c!"group" [] (some c!" mtu {{ mtu }}\n") [] (some c!"\n")]

theorem pieces_eq (p : Char) (o : Str) (ws : List Str) (h : Pieces p o ws) : ws = splitC p o := by
  obtain ⟨h1, h2, h3⟩ := h
  rw [← h2, splitC_join p ws h1 h3]

theorem pathOf_relative (p : Char) (top : Bool) (parent : List Str) (o : Str) (path : List Str) (ho : ¬ c!"/" <+: o)
    (h : PathOf p top parent (some o) path) : path = parent ++ splitC p o := by
  have slash : ∀ (sl : Str) (o' : Str), sl ≠ [] → (∀ c ∈ sl, c = '/') → c!"/" <+: sl ++ o' := by
    intro sl o' h1 h2
    cases sl with
    | nil => exact absurd rfl h1
    | cons c cs => rw [h2 c (by simp)]; exact ⟨cs ++ o', rfl⟩
  cases h with
  | relative _ hp => rw [pieces_eq p _ _ hp]
  | absolute h1 h2 => exact absurd (slash _ _ h1 h2) ho
  | anonymous h1 h2 => exact absurd (slash _ _ h1 h2) ho
  | root => exact absurd ⟨[], rfl⟩ ho

theorem pathOf_absolute (p : Char) (top : Bool) (parent : List Str) (o o' : Str) (path : List Str) (e : o' = '/' :: o)
    (ho : ¬ c!"/" <+: o) (hne : o ≠ []) (ha : c!"_anonymous_" ∉ parent) (h : PathOf p top parent (some o') path) :
    path = splitC p o := by
  have same : ∀ (sl a : Str), sl ≠ [] → (∀ c ∈ sl, c = '/') → sl ++ a = '/' :: o → a = o := by
    intro sl a h1 h2 e
    cases sl with
    | nil => exact absurd rfl h1
    | cons c cs =>
      simp only [List.cons_append, List.cons.injEq] at e
      cases cs with
      | nil => simpa using e.2
      | cons d ds =>
        exfalso
        apply ho
        rw [← e.2, h2 d (by simp)]
        exact ⟨ds ++ a, rfl⟩
  cases h with
  | relative h1 _ => exact absurd ⟨o, e.symm⟩ h1
  | absolute h1 h2 _ _ _ hp => rw [pieces_eq p _ _ hp, same _ _ h1 h2 e]
  | anonymous _ _ _ h4 => exact absurd h4 ha
  | root => injection e with _ e; exact absurd e.symm hne

theorem nameAttr_eq (attrib : Dict Str Str) (a b : Option Str) (h1 : NameAttr attrib a) (h2 : NameAttr attrib b) : a = b := by
  cases a with
  | none => cases b with
    | none => rfl
    | some b => obtain ⟨k, e⟩ := h2; simp only [NameAttr] at h1; rw [h1] at e; cases e
  | some a => cases b with
    | none => obtain ⟨k, e⟩ := h1; simp only [NameAttr] at h2; rw [h2] at e; cases e
    | some b => obtain ⟨k, e⟩ := h1; obtain ⟨k', e'⟩ := h2; rw [e] at e'; cases e'; rfl

/-- a relative name: path and identity of the group -/
theorem placed_relative (p : Char) (top : Bool) (parent : List Str) (pid : Option GId) (index : Nat) (t : Str)
    (attrib : Dict Str Str) (text : Option Str) (cs : List Xml) (tail : Option Str) (g : Grp) (o : Str)
    (hn : NameAttr attrib (some o)) (ho : ¬ c!"/" <+: o) (h : Placed p top parent pid index (.mk t attrib text cs tail) g) :
    ∃ info s n e d gs, g = .mk info s n e d gs ∧ info.path = parent ++ splitC p o ∧ info.gid = (join c!"." info.path, index) ∧
      PlacedAll p info.path info.gid 0 cs gs := by
  cases h with
  | @mk _ _ _ _ _ _ _ _ _ info s n e d gs nm a1 a2 a3 a4 a5 =>
    have := nameAttr_eq _ _ _ hn a1
    subst this
    exact ⟨info, s, n, e, d, gs, rfl, pathOf_relative p top parent o _ ho a2, by simpa using a4, a5⟩

theorem Ex.xmlNested_names : NamesAllOK [Ex.xmlNested] := by
  refine .cons (.mk (some c!"interfaces*") ⟨c!"name", rfl⟩ ?_ (.cons (.mk (some c!"ip.v4*") ⟨c!"name", rfl⟩ ?_ .nil)
    (.cons (.mk (some c!"/all.descr") ⟨c!"name", rfl⟩ ?_ .nil) (.cons (.mk none rfl ?_ .nil) .nil)))) .nil
  · intro o e; cases e; exact ⟨by decide, Or.inr ⟨'i', by decide, by decide⟩⟩
  · intro o e; cases e; exact ⟨by decide, Or.inr ⟨'i', by decide, by decide⟩⟩
  · intro o e; cases e; exact ⟨by decide, Or.inr ⟨'a', by decide, by decide⟩⟩
  · intro o e; cases e

example : ∃ gs, loadGroups Ex.ctx0 c!"." 0 0 [Ex.xmlNested] = .ok gs ∧ (gs.map (fun g => pathsOf g.grp 9)).flatten =
    [([c!"interfaces*"], (c!"interfaces*", 0)),
      ([c!"interfaces*", c!"ip", c!"v4*"], (c!"interfaces*.ip.v4*", 0)),
      ([c!"all", c!"descr"], (c!"all.descr", 1)),
      ([c!"interfaces*"], (c!"interfaces*._anonymous_", 2))] := by
  obtain ⟨gs, h⟩ := Ex.ok_of (loadGroups Ex.ctx0 c!"." 0 0 [Ex.xmlNested]) (by decide +kernel)
  refine ⟨gs, h, ?_⟩
  obtain ⟨hl, hp⟩ := C80_paths_of_groups Ex.ctx0 '.' [Ex.xmlNested] Ex.xmlNested_names 0 0 gs h
  obtain ⟨g, rfl⟩ := List.length_eq_one_iff.1 hl
  obtain ⟨_, hp⟩ := hp 0 _ g rfl rfl
  obtain ⟨info, s, n, e, d, cs, e1, e2, e3, e4⟩ := placed_relative '.' _ _ _ _ _ _ _ _ _ _ c!"interfaces*" ⟨c!"name", rfl⟩
    (by decide) hp
  have e2' : info.path = [c!"interfaces*"] := by rw [e2]; decide
  have e3' : info.gid = (c!"interfaces*", 0) := by rw [e3, e2']; decide
  rw [e2', e3'] at e4
  cases e4 with
  | @cons _ _ _ _ _ g1 gs1 p1 r1 =>
    cases r1 with
    | @cons _ _ _ _ _ g2 gs2 p2 r2 =>
      cases r2 with
      | @cons _ _ _ _ _ g3 gs3 p3 r3 =>
        cases r3
        obtain ⟨i1, s1, n1, b1, d1, cs1, f1, f2, f3, f4⟩ := placed_relative '.' _ _ _ _ _ _ _ _ _ _ c!"ip.v4*" ⟨c!"name", rfl⟩
          (by decide) p1
        cases f4
        have f2' : i1.path = [c!"interfaces*", c!"ip", c!"v4*"] := by rw [f2]; decide
        have f3' : i1.gid = (c!"interfaces*.ip.v4*", 0) := by rw [f3, f2']; decide
        cases p2 with
        | @mk _ _ _ _ _ _ _ _ _ i2 _ _ _ _ cs2 nm a1 a2 a3 a4 a5 =>
          cases a5
          have : some c!"/all.descr" = nm := nameAttr_eq _ _ _ ⟨c!"name", rfl⟩ a1
          subst this
          have g2' : i2.path = [c!"all", c!"descr"] := by
            rw [pathOf_absolute '.' _ _ c!"all.descr" _ _ rfl (by decide) (by decide) (by decide) a2]; decide
          have g3' : i2.gid = (c!"all.descr", 1) := by rw [a4, g2']; decide
          cases p3 with
          | @mk _ _ _ _ _ _ _ _ _ i3 _ _ _ _ cs3 nm b1 b2 b3 b4 b5 =>
            cases b5
            have : none = nm := nameAttr_eq [] _ _ rfl b1
            subst this
            have h2' : i3.path = [c!"interfaces*"] := by
              generalize hq : i3.path = q at b2
              cases b2 with
              | noName h => cases h
              | noNameChild _ => rfl
            have h3' : i3.gid = (c!"interfaces*._anonymous_", 2) := by rw [b4, h2']; decide
            simp only [List.map_cons, List.map_nil, e1, f1, pathsOf, e2', e3', f2', f3', g2', g3', h2', h3']
            rfl

/-! ## C81 -/

theorem placedAll_get (p : Char) (path : List Str) (gid : GId) (i : Nat) (xs : List Xml) (gs : List Grp)
    (h : PlacedAll p path gid i xs gs) (j : Nat) (info : GInfo) (s n e : List LineRx) (d : Bool) (cs : List Grp)
    (hj : gs[j]? = some (.mk info s n e d cs)) : info.gid.2 = i + j ∧ info.parent = some gid := by
  induction gs generalizing xs i j with
  | nil => simp at hj
  | cons g gs ih =>
    cases h with
    | @cons _ _ _ x xs _ _ h1 h2 =>
      cases j with
      | zero =>
        simp only [List.getElem?_cons_zero, Option.some.injEq] at hj
        subst hj
        cases h1 with
        | mk nm a1 a2 a3 a4 a5 => exact ⟨by rw [a4]; rfl, a3⟩
      | succ j =>
        simp only [List.getElem?_cons_succ] at hj
        obtain ⟨b1, b2⟩ := ih (i + 1) xs h2 j hj
        exact ⟨by rw [b1]; omega, b2⟩

/-- the identity of a group -/
def _root_.TTP.Grp.gid : Grp → GId
  | .mk info _ _ _ _ _ => info.gid

/-- its children -/
def _root_.TTP.Grp.children : Grp → List Grp
  | .mk _ _ _ _ _ cs => cs

/-- C81, what holds: the top groups of a template have different identities, and so have the children of one group. What is
missing: groups of different parents, see `C81_identities_collide`. -/
theorem C81_siblings_differ_partial (ctx : LoadCtx) (p : Char) (xs : List Xml) (hx : NamesAllOK xs) (gs : List TopGroup)
    (h : loadGroups ctx [p] 0 0 xs = .ok gs) :
    (gs.map (fun g => g.grp.gid)).Nodup ∧ ∀ g ∈ gs, (g.grp.children.map Grp.gid).Nodup := by
  obtain ⟨hlen, hall⟩ := C80_paths_of_groups ctx p xs hx 0 0 gs h
  have nodup_of : ∀ (l : List GId), (∀ (i : Nat) (g : GId), l[i]? = some g → g.2 = i) → l.Nodup := by
    intro l hl
    refine List.pairwise_iff_getElem.2 (fun i j hi hj hij e => ?_)
    have h1 := hl i l[i] (List.getElem?_eq_getElem hi)
    have h2 := hl j l[j] (List.getElem?_eq_getElem hj)
    rw [e, h2] at h1
    omega
  constructor
  · apply nodup_of
    intro i gid hi
    rw [List.getElem?_map] at hi
    cases hg : gs[i]? with
    | none => rw [hg] at hi; cases hi
    | some g =>
      rw [hg] at hi
      simp only [Option.map_some, Option.some.injEq] at hi
      have hlt : i < xs.length := by
        rw [← hlen]; exact (List.getElem?_eq_some_iff.1 hg).1
      obtain ⟨_, hp⟩ := hall i xs[i] g (List.getElem?_eq_getElem hlt) hg
      subst hi
      cases hgg : g.grp with
      | mk info s n e d cs =>
        rw [hgg] at hp
        cases hxi : xs[i] with
        | mk t attrib text cs' tail =>
          rw [hxi] at hp
          cases hp with
          | mk nm a1 a2 a3 a4 a5 => simp only [Grp.gid, a4]; omega
  · intro g hg
    obtain ⟨i, hi⟩ := List.mem_iff_getElem?.1 hg
    have hlt : i < xs.length := by
      rw [← hlen]; exact (List.getElem?_eq_some_iff.1 hi).1
    obtain ⟨_, hp⟩ := hall i xs[i] g (List.getElem?_eq_getElem hlt) hi
    cases hgg : g.grp with
    | mk info s n e d cs =>
      rw [hgg] at hp
      cases hxi : xs[i] with
      | mk t attrib text cs' tail =>
        rw [hxi] at hp
        cases hp with
        | mk nm a1 a2 a3 a4 a5 =>
          simp only [Grp.children]
          apply nodup_of
          intro j gid hj
          rw [List.getElem?_map] at hj
          cases hc : cs[j]? with
          | none => rw [hc] at hj; cases hj
          | some c =>
            rw [hc] at hj
            simp only [Option.map_some, Option.some.injEq] at hj
            subst hj
            cases c with
            | mk info' s' n' e' d' cs'' =>
              have := (placedAll_get p _ _ 0 _ _ a5 j info' s' n' e' d' cs'' hc).1
              simp only [Grp.gid]; omega

/-- groups `a.x` (or another name) and, inside of a group `a`, `x` -/
def Ex.xmlTwins (name : Str) : List Xml :=
  [.mk c!"group" [(c!"name", name)] (some c!"\nfirst {{ f | reject }}\n") [] (some c!"\n"),
   .mk c!"group" [(c!"name", c!"a")] (some c!"\nsecond {{ s }}\n")
     [.mk c!"group" [(c!"name", c!"x")] (some c!"\n inner {{ i }}\n more {{ m }}\n") [] (some c!"\n")] (some c!"\n")]

/-- the matches of the text ` inner 3`, `first 1`, ` more 4`; the second one is rejected. `g` is the identity of the first
group. -/
def Ex.twinHits (g : GId) : List (List Hit) :=
  [[(⟨(c!"a.x", 0), some (c!"a", 1), [c!"a", c!"x"], [], [], .start, false, []⟩, some [(.s c!"i", .str c!"3")])],
   [(⟨g, none, [c!"a", c!"x"], [], [], .start, false, []⟩, none)],
   [(⟨(c!"a.x", 0), some (c!"a", 1), [c!"a", c!"x"], [], [], .add, false, []⟩, some [(.s c!"m", .str c!"4")])]]

theorem Ex.xmlTwins_names : NamesAllOK (Ex.xmlTwins c!"a.x") := by
  refine .cons (.mk (some c!"a.x") ⟨c!"name", rfl⟩ ?_ .nil) (.cons (.mk (some c!"a") ⟨c!"name", rfl⟩ ?_
    (.cons (.mk (some c!"x") ⟨c!"name", rfl⟩ ?_ .nil) .nil)) .nil)
  · intro o e; cases e; exact ⟨by decide, Or.inr ⟨'a', by decide, by decide⟩⟩
  · intro o e; cases e; exact ⟨by decide, Or.inr ⟨'a', by decide, by decide⟩⟩
  · intro o e; cases e; exact ⟨by decide, Or.inr ⟨'x', by decide, by decide⟩⟩

/-- C81 is false of the code across parents: a first group `a.x` and the child `x` of the group `a` have the same identity. -/
theorem C81_identities_collide : ∃ gs, loadGroups Ex.ctx0 c!"." 0 0 (Ex.xmlTwins c!"a.x") = .ok gs ∧
    (gs.map (fun g => (pathsOf g.grp 9).map (·.2))).flatten = [(c!"a.x", 0), (c!"a", 1), (c!"a.x", 0)] := by
  obtain ⟨gs, h⟩ := Ex.ok_of (loadGroups Ex.ctx0 c!"." 0 0 (Ex.xmlTwins c!"a.x")) (by decide +kernel)
  refine ⟨gs, h, ?_⟩
  obtain ⟨hl, hp⟩ := C80_paths_of_groups Ex.ctx0 '.' (Ex.xmlTwins c!"a.x") Ex.xmlTwins_names 0 0 gs h
  obtain ⟨g1, g2, rfl⟩ : ∃ g1 g2, gs = [g1, g2] := by
    match gs, hl with
    | [g1, g2], _ => exact ⟨g1, g2, rfl⟩
  obtain ⟨_, p1⟩ := hp 0 _ g1 rfl rfl
  obtain ⟨_, p2⟩ := hp 1 _ g2 rfl rfl
  obtain ⟨i1, s1, n1, b1, d1, cs1, e1, e2, e3, e4⟩ := placed_relative '.' _ _ _ _ _ _ _ _ _ _ c!"a.x" ⟨c!"name", rfl⟩ (by decide) p1
  obtain ⟨i2, s2, n2, b2, d2, cs2, f1, f2, f3, f4⟩ := placed_relative '.' _ _ _ _ _ _ _ _ _ _ c!"a" ⟨c!"name", rfl⟩ (by decide) p2
  cases e4
  have e2' : i1.path = [c!"a", c!"x"] := by rw [e2]; decide
  have e3' : i1.gid = (c!"a.x", 0) := by rw [e3, e2']; decide
  have f2' : i2.path = [c!"a"] := by rw [f2]; decide
  have f3' : i2.gid = (c!"a", 1) := by rw [f3, f2']; decide
  rw [f2', f3'] at f4
  cases f4 with
  | @cons _ _ _ _ _ g3 gs1 p3 r =>
    cases r
    obtain ⟨i3, s3, n3, b3, d3, cs3, k1, k2, k3, k4⟩ := placed_relative '.' _ _ _ _ _ _ _ _ _ _ c!"x" ⟨c!"name", rfl⟩ (by decide) p3
    cases k4
    have k2' : i3.path = [c!"a", c!"x"] := by rw [k2]; decide
    have k3' : i3.gid = (c!"a.x", 0) := by rw [k3, k2']; decide
    simp only [List.map_cons, List.map_nil, e1, f1, k1, pathsOf, e3', f3', k3']
    rfl

/-- A match that the one of them rejects makes the other lose its lines, which it does not if they have different identities. -/
theorem C81_collision_loses_lines :
    (makeResults false (fun _ ms v => pure (ms, v, none)) [] [] [] [Ex.twinHits (c!"a.x", 0)] (.dict [])).map (·.results) =
      .ok (.dict [(.s c!"a", .dict [(.s c!"x", .dict [(.s c!"i", .str c!"3")])])]) ∧
    (makeResults false (fun _ ms v => pure (ms, v, none)) [] [] [] [Ex.twinHits (c!"a.x", 7)] (.dict [])).map (·.results) =
      .ok (.dict [(.s c!"a", .dict [(.s c!"x", .dict [(.s c!"m", .str c!"4"), (.s c!"i", .str c!"3")])])]) := by
  decide +kernel

/-! ## C82, C83 -/

/-- C82. The defaults of a group without a `default` attribute: a name has the last default that is declared for it in the lines of
the group (its text and what follows its children), by `default(...)` or by `set(...)` on a line without text. -/
theorem C82_declared_defaults (ctx : LoadCtx) (pathchar : Str) (hw : ∀ k dd, (k, Val.dict dd) ∈ ctx.vars → Dict.WF dd) (x : Xml)
    (hnm : DefaultAttr x.attrib none) (ls : List TLine) (hl : LinesAre x.ownLines ls) (vs : List PVar)
    (hv : VarsOf ctx ls vs) (top : Bool) (path : List Str) (parent : Option GId) (index uid : Nat) (l : Loaded) (uid' : Nat)
    (h : loadGroup ctx pathchar top path parent index uid x = .ok (l, uid')) (n : Str)
    (hn : n ∉ [c!"_end_", c!"_line_", c!"ignore", c!"_start_"]) :
    ∃ info s nr e hd cs, l.grp = .mk info s nr e hd cs ∧ Dict.get? info.defaults (.s n) = (declared n vs).getLast? := by
  obtain ⟨info, s, nr, e, hd, cs, h1, h2⟩ := loadGroup_defaults ctx pathchar hw x none hnm ls hl vs hv top path parent index uid l
    uid' h n hn
  refine ⟨info, s, nr, e, hd, cs, h1, ?_⟩
  rw [h2]
  simp [defaultOf, attrDefault, dictDefault, textDefault]

/-- C82. With `default="text"` every variable of the group has a default: what is declared for it, else the text. -/
theorem C82_text_default (ctx : LoadCtx) (pathchar : Str) (hw : ∀ k dd, (k, Val.dict dd) ∈ ctx.vars → Dict.WF dd) (x : Xml)
    (o : Str) (hnm : DefaultAttr x.attrib (some o)) (ho : o ∉ Dict.keys ctx.vars) (hg : o ≠ c!"_Not_Given_")
    (ls : List TLine) (hl : LinesAre x.ownLines ls) (vs : List PVar)
    (hv : VarsOf ctx ls vs) (top : Bool) (path : List Str) (parent : Option GId) (index uid : Nat) (l : Loaded) (uid' : Nat)
    (h : loadGroup ctx pathchar top path parent index uid x = .ok (l, uid')) (n : Str)
    (hn : n ∉ [c!"_end_", c!"_line_", c!"ignore", c!"_start_"]) :
    ∃ info s nr e hd cs, l.grp = .mk info s nr e hd cs ∧ Dict.get? info.defaults (.s n) =
      match (declared n vs).getLast? with
      | some v => some v
      | none => if n ∈ vs.map (·.name) then some (.str o) else none := by
  obtain ⟨info, s, nr, e, hd, cs, h1, h2⟩ := loadGroup_defaults ctx pathchar hw x (some o) hnm ls hl vs hv top path parent index uid l
    uid' h n hn
  refine ⟨info, s, nr, e, hd, cs, h1, ?_⟩
  rw [h2]
  have : Dict.get? ctx.vars o = none := (Dict.get?_eq_none_iff _ _).2 ho
  simp only [defaultOf, attrDefault, this, Option.getD_none, dictDefault, textDefault, hg, if_false, Option.none_or]
  cases (declared n vs).getLast? <;> simp

/-- C83. With `default="name"` of a template variable that is a dictionary, the names of the dictionary have its values (even if
the lines of the group declare others), the other names what is declared. -/
theorem C83_dict_default (ctx : LoadCtx) (pathchar : Str) (hw : ∀ k dd, (k, Val.dict dd) ∈ ctx.vars → Dict.WF dd) (x : Xml)
    (o : Str) (hnm : DefaultAttr x.attrib (some o)) (dd : Dict Key Val) (ho : Dict.get? ctx.vars o = some (.dict dd))
    (ls : List TLine) (hl : LinesAre x.ownLines ls) (vs : List PVar)
    (hv : VarsOf ctx ls vs) (top : Bool) (path : List Str) (parent : Option GId) (index uid : Nat) (l : Loaded) (uid' : Nat)
    (h : loadGroup ctx pathchar top path parent index uid x = .ok (l, uid')) (n : Str)
    (hn : n ∉ [c!"_end_", c!"_line_", c!"ignore", c!"_start_"]) :
    ∃ info s nr e hd cs, l.grp = .mk info s nr e hd cs ∧ Dict.get? info.defaults (.s n) =
      match Dict.get? dd (.s n) with
      | some v => some v
      | none => (declared n vs).getLast? := by
  obtain ⟨info, s, nr, e, hd, cs, h1, h2⟩ := loadGroup_defaults ctx pathchar hw x (some o) hnm ls hl vs hv top path parent index uid l
    uid' h n hn
  refine ⟨info, s, nr, e, hd, cs, h1, ?_⟩
  rw [h2]
  simp only [defaultOf, attrDefault, ho, Option.getD_some, dictDefault, textDefault]
  cases Dict.get? dd (.s n) <;> simp

namespace Ex

/-- `interface {{ name }}` -/
def tl1 : TLine := ⟨[], [.text c!"interface ", .var c!" name "], []⟩
/-- ` mtu {{ mtu | default(1500) }}` -/
def tl2 : TLine := ⟨c!" ", [.text c!"mtu ", .var c!" mtu | default(1500) "], []⟩
/-- ` {{ kind | set(phys) }}` -/
def tl3 : TLine := ⟨c!" ", [.var c!" kind | set(phys) "], c!" "⟩
/-- the variables of the lines -/
def pvars : List PVar := [⟨false, c!"name", []⟩, ⟨false, c!"mtu", [⟨c!"default", [.str c!"1500"], []⟩]⟩,
  ⟨true, c!"kind", [⟨c!"set", [.str c!"phys"], []⟩]⟩]

theorem tl_ok : tl1.OK ∧ tl2.OK ∧ tl3.OK := by
  have t1 : ∀ t, Piece.text t ∈ tl1.pieces → t = c!"interface " := by
    intro t h; simpa [tl1] using h
  have t2 : ∀ t, Piece.text t ∈ tl2.pieces → t = c!"mtu " := by
    intro t h; simpa [tl2] using h
  have v1 : ∀ t, Piece.var t ∈ tl1.pieces → t = c!" name " := by
    intro t h; simpa [tl1] using h
  have v2 : ∀ t, Piece.var t ∈ tl2.pieces → t = c!" mtu | default(1500) " := by
    intro t h; simpa [tl2] using h
  have v3 : ∀ t, Piece.var t ∈ tl3.pieces → t = c!" kind | set(phys) " := by
    intro t h; simpa [tl3] using h
  refine ⟨⟨by decide, by decide, ?_, ?_, by decide, ⟨'i', c!"nterface {{ name }}", rfl, by decide⟩,
      ⟨c!"interface {{ name }", '}', rfl, by decide⟩, by decide⟩,
    ⟨by decide, by decide, ?_, ?_, by decide, ⟨'m', c!"tu {{ mtu | default(1500) }}", rfl, by decide⟩,
      ⟨c!"mtu {{ mtu | default(1500) }", '}', rfl, by decide⟩, by decide⟩,
    ⟨by decide, by decide, ?_, ?_, by decide, ⟨'{', c!"{ kind | set(phys) }}", rfl, by decide⟩,
      ⟨c!"{{ kind | set(phys) }", '}', rfl, by decide⟩, by decide⟩⟩
  · intro t h; rw [t1 t h]; decide
  · intro t h; rw [v1 t h]; decide
  · intro t h; rw [t2 t h]; decide
  · intro t h; rw [v2 t h]; decide
  · intro t h; simp [tl3] at h
  · intro t h; rw [v3 t h]; decide

theorem pvars_of : VarsOf ctx0 [tl1, tl2, tl3] pvars := by
  obtain ⟨o1, o2, o3⟩ := tl_ok
  have word : ∀ w : Str, w.all isWord = true → ∀ c ∈ w, isWord c = true := fun w h => List.all_eq_true.1 h
  refine .cons o1 (vs := [⟨false, c!"name", []⟩]) (.cons ⟨⟨c!"name", [], []⟩, by decide +kernel, rfl, ?_, word _ (by decide), ?_,
      by decide, by decide⟩ .nil)
    (.cons o2 (vs := [⟨false, c!"mtu", [⟨c!"default", [.str c!"1500"], []⟩]⟩]) (.cons ⟨⟨c!"mtu", [], []⟩, by decide +kernel, rfl, ?_,
      word _ (by decide), ?_, by decide, by decide⟩ .nil)
    (.cons o3 (vs := [⟨true, c!"kind", [⟨c!"set", [.str c!"phys"], []⟩]⟩]) (.cons ⟨⟨c!"kind", [], []⟩, by decide +kernel, rfl, ?_,
      word _ (by decide), ?_, by decide, by decide⟩ .nil) .nil))
  · refine ⟨fun h => (by cases h), fun h => ?_⟩
    exact absurd (h c!"interface " (by simp [tl1]) 'i' (by decide)) (by decide)
  · intro c cs e; injection e with e1 _; rw [← e1]; decide
  · refine ⟨fun h => (by cases h), fun h => ?_⟩
    exact absurd (h c!"mtu " (by simp [tl2]) 'm' (by decide)) (by decide)
  · intro c cs e; injection e with e1 _; rw [← e1]; decide
  · exact ⟨fun _ t h => by simp [tl3] at h, fun _ => rfl⟩
  · intro c cs e; injection e with e1 _; rw [← e1]; decide

/-- a group of these lines -/
def xmlD (dflt : Str) : Xml := .mk c!"group" [(c!"name", c!"interfaces*"), (c!"default", dflt)]
  (some c!"\ninterface {{ name }}\n mtu {{ mtu | default(1500) }}\n {{ kind | set(phys) }} ") [] (some c!"\n")

theorem xmlD_lines (dflt : Str) : LinesAre (xmlD dflt).ownLines [tl1, tl2, tl3] := by
  have e : (xmlD dflt).ownLines = [[], tl1.source, tl2.source, tl3.source] := by
    show Format.splitlines _ ++ _ = _
    decide +kernel
  rw [e]
  exact .skip (Or.inl (by simp)) (.line _ (.line _ (.line _ .nil)))

end Ex

example : ∃ info s nr e hd cs nm i o u, loadGroup Ex.ctx0 c!"." true [] none 0 0 (Ex.xmlD c!"none") = .ok (⟨.mk info s nr e hd cs, nm, i, o⟩, u) ∧
    Dict.get? info.defaults (.s c!"name") = some (.str c!"none") ∧ Dict.get? info.defaults (.s c!"mtu") = some (.str c!"1500") ∧
    Dict.get? info.defaults (.s c!"kind") = some (.str c!"phys") := by
  obtain ⟨⟨⟨g, nm, ins, outs⟩, uid'⟩, h⟩ := Ex.ok_of (loadGroup Ex.ctx0 c!"." true [] none 0 0 (Ex.xmlD c!"none")) (by decide +kernel)
  have key := fun n hn => C82_text_default Ex.ctx0 c!"." Ex.ctx0_wf (Ex.xmlD c!"none") c!"none" ⟨c!"default", rfl⟩ (by decide) (by decide)
    _ (Ex.xmlD_lines _) _ Ex.pvars_of true [] none 0 0 _ _ h n hn
  obtain ⟨info, s, nr, e, hd, cs, h1, h2⟩ := key c!"name" (by decide)
  obtain ⟨_, _, _, _, _, _, h3, h4⟩ := key c!"mtu" (by decide)
  obtain ⟨_, _, _, _, _, _, h5, h6⟩ := key c!"kind" (by decide)
  simp only at h1 h3 h5
  rw [h1] at h3 h5
  cases h3; cases h5
  subst h1
  exact ⟨_, _, _, _, _, _, _, _, _, _, h, h2, h4, h6⟩

/-- C83, concretely: the dictionary wins over `default(1500)` -/
example : ∃ info s nr e hd cs nm i o u, loadGroup Ex.ctx0 c!"." true [] none 0 0 (Ex.xmlD c!"dd") = .ok (⟨.mk info s nr e hd cs, nm, i, o⟩, u) ∧
    Dict.get? info.defaults (.s c!"mtu") = some (.str c!"9000") ∧ Dict.get? info.defaults (.s c!"kind") = some (.str c!"phys") := by
  obtain ⟨⟨⟨g, nm, ins, outs⟩, uid'⟩, h⟩ := Ex.ok_of (loadGroup Ex.ctx0 c!"." true [] none 0 0 (Ex.xmlD c!"dd")) (by decide +kernel)
  have key := fun n hn => C83_dict_default Ex.ctx0 c!"." Ex.ctx0_wf (Ex.xmlD c!"dd") c!"dd" ⟨c!"default", rfl⟩ _ rfl
    _ (Ex.xmlD_lines _) _ Ex.pvars_of true [] none 0 0 _ _ h n hn
  obtain ⟨info, s, nr, e, hd, cs, h1, h2⟩ := key c!"mtu" (by decide)
  obtain ⟨_, _, _, _, _, _, h3, h4⟩ := key c!"kind" (by decide)
  simp only at h1 h3
  rw [h1] at h3
  cases h3
  subst h1
  exact ⟨_, _, _, _, _, _, _, _, _, _, h, h2, h4⟩

/-! ## C84 -/

/-- C84. A pipe of functions, with any white space around the pipes, is read as these functions in order; the arguments are what
Python makes of the text in the brackets. -/
theorem C84_pipe (ctx : LoadCtx) (items : List (Str × AttrText × Str)) (fs : List FnCall) (hne : items ≠ [])
    (hi : ∀ i ∈ items, (∀ c ∈ i.1, isSpace c = true) ∧ i.2.1.OK ∧ ∀ c ∈ i.2.2, isSpace c = true)
    (hf : All2 (fun i f => i.2.1.Means ctx f) items fs) : getAttributes ctx (pipeSource items) = .ok fs :=
  getAttributes_pipe ctx items fs hne hi hf

/-- C84 for an attribute of a group tag that is no option of a group: it is a function of the group. -/
theorem C84_group_attribute (ctx : LoadCtx) (pathchar : Str) (top : Bool) (index : Nat) (a : GAttrs) (name value : Str)
    (hn : lower name ∉ [c!"method", c!"input", c!"output", c!"name", c!"default", c!"chain", c!"functions"])
    (hok : AttrText.OK ⟨name, some value⟩) (f : FnCall) (hf : AttrText.Means ctx ⟨name, some value⟩ f) :
    groupAttr ctx pathchar top index a name value = .ok { a with funcs := a.funcs ++ [f] } := by
  simp only [List.mem_cons, List.not_mem_nil, or_false, not_or] at hn
  obtain ⟨n1, n2, n3, n4, n5, n6, n7⟩ := hn
  unfold groupAttr
  rw [if_neg n1, if_neg n2, if_neg n3, if_neg n4, if_neg n5, if_neg (by simp [n6, n7])]
  have := getAttributes_pipe ctx [([], ⟨name, some value⟩, [])] [f] (by simp) (by
    intro i hi
    simp only [List.mem_singleton] at hi
    subst hi
    exact ⟨by simp, hok, by simp⟩) (.cons hf .nil)
  have e : pipeSource [([], ⟨name, some value⟩, [])] = name ++ '(' :: (value ++ [')']) := by
    simp [pipeSource, AttrText.source, join]
  rw [e] at this
  rw [this]
  rfl

/-- C84 for the attribute `functions` (or `chain`) of a group tag: the functions of the pipe that are functions of groups, in order, after those
before; names nobody knows are dropped. A name that is an option of a group is an error there, but `input` and `output` of an inner group are
dropped. -/
theorem C84_functions_attribute (ctx : LoadCtx) (pathchar : Str) (top : Bool) (index : Nat) (a : GAttrs) (name : Str)
    (hn : lower name = c!"chain" ∨ lower name = c!"functions")
    (items : List (Str × AttrText × Str)) (fs : List FnCall) (hne : items ≠ [])
    (hi : ∀ i ∈ items, (∀ c ∈ i.1, isSpace c = true) ∧ i.2.1.OK ∧ ∀ c ∈ i.2.2, isSpace c = true)
    (hf : All2 (fun i f => i.2.1.Means ctx f) items fs) (hv : Dict.get? ctx.vars (pipeSource items) = none) :
    ((∀ f ∈ fs, f.name ∉ [c!"method", c!"name", c!"default", c!"chain", c!"functions"] ∧ (f.name ∈ [c!"input", c!"output"] → top = false)) →
      groupAttr ctx pathchar top index a name (pipeSource items) = .ok { a with
        funcs := a.funcs ++ fs.filter (fun f => decide (f.name ∉ [c!"input", c!"output"]) && ctx.isGroupFn f.name) }) ∧
    ((∃ f ∈ fs, f.name ∈ [c!"method", c!"name", c!"default", c!"chain", c!"functions"] ∨ (f.name ∈ [c!"input", c!"output"] ∧ top = true)) →
      ∃ e, groupAttr ctx pathchar top index a name (pipeSource items) = .error e) := by
  have hg := getAttributes_pipe ctx items fs hne hi hf
  have h0 : groupAttr ctx pathchar top index a name (pipeSource items) =
      (do pure { a with funcs := ← chainFuncs ctx top fs a.funcs }) := by
    unfold groupAttr
    have hx : ∀ o ∈ [c!"method", c!"input", c!"output", c!"name", c!"default"], lower name ≠ o := by
      intro o ho e
      rw [e] at hn
      clear e
      revert hn
      revert o
      decide
    rw [if_neg (hx _ (by simp)), if_neg (hx _ (by simp)), if_neg (hx _ (by simp)), if_neg (hx _ (by simp)), if_neg (hx _ (by simp)),
      if_pos (by rcases hn with h | h <;> simp [h]), hv]
    show (do let as ← getAttributes ctx (pipeSource items); _) = _
    rw [hg]
    rfl
  rw [h0]
  constructor
  · intro h
    have : ∀ (fs : List FnCall) (acc : List FnCall),
        (∀ f ∈ fs, f.name ∉ [c!"method", c!"name", c!"default", c!"chain", c!"functions"] ∧ (f.name ∈ [c!"input", c!"output"] → top = false)) →
        chainFuncs ctx top fs acc = .ok (acc ++ fs.filter (fun f => decide (f.name ∉ [c!"input", c!"output"]) && ctx.isGroupFn f.name)) := by
      intro fs
      induction fs with
      | nil => intro acc _; simp [chainFuncs]
      | cons f fs ih =>
        intro acc h
        obtain ⟨h1, h2⟩ := h f (by simp)
        have ih := fun acc => ih acc (fun g hg => h g (by simp [hg]))
        simp only [List.mem_cons, List.not_mem_nil, or_false, not_or] at h1 h2
        unfold chainFuncs
        rw [if_neg (by simp [h1])]
        by_cases hio : f.name = c!"input" ∨ f.name = c!"output"
        · have hc : (decide (f.name = c!"input") || decide (f.name = c!"output")) = true := by
            rcases hio with h | h <;> rw [h] <;> decide
          have hd : (decide (f.name ∉ [c!"input", c!"output"]) && ctx.isGroupFn f.name) = false := by
            rcases hio with h | h <;> simp [h]
          rw [if_pos hc, if_neg (by simp [h2 hio]), ih, List.filter_cons, hd]
          rfl
        · rw [if_neg (by simp only [not_or] at hio; simp [hio]), if_neg (by simp [h1])]
          simp only [not_or] at hio
          by_cases hgf : ctx.isGroupFn f.name = true
          · rw [if_pos hgf, ih, List.filter_cons, if_pos (by simp [hio, hgf])]
            simp
          · rw [if_neg hgf, ih, List.filter_cons, if_neg (by simp [hgf])]
    rw [this fs a.funcs h]
    rfl
  · intro h
    have : ∀ (fs : List FnCall) (acc : List FnCall),
        (∃ f ∈ fs, f.name ∈ [c!"method", c!"name", c!"default", c!"chain", c!"functions"] ∨ (f.name ∈ [c!"input", c!"output"] ∧ top = true)) →
        ∃ e, chainFuncs ctx top fs acc = .error e := by
      intro fs
      induction fs with
      | nil => rintro acc ⟨f, hf, _⟩; cases hf
      | cons f fs ih =>
        rintro acc ⟨g, hg, hh⟩
        unfold chainFuncs
        split
        · exact ⟨_, rfl⟩
        · rename_i c1
          split
          · rename_i c2
            split
            · exact ⟨_, rfl⟩
            · rename_i c3
              rcases List.mem_cons.1 hg with rfl | hg
              · simp only [Bool.or_eq_true, decide_eq_true_eq] at c1 c2
                simp only [List.mem_cons, List.not_mem_nil, or_false] at hh
                rcases c2 with c2 | c2 <;> rw [c2] at hh <;> simp at hh <;> exact absurd hh c3
              · exact ih acc ⟨g, hg, hh⟩
          · rename_i c2
            split
            · exact ⟨_, rfl⟩
            · rename_i c3
              have hg' : g ∈ fs := by
                rcases List.mem_cons.1 hg with rfl | hg
                · exfalso
                  simp only [Bool.or_eq_true, decide_eq_true_eq, not_or] at c1 c2 c3
                  simp only [List.mem_cons, List.not_mem_nil, or_false] at hh
                  grind
                · exact hg
              split
              · exact ih _ ⟨g, hg', hh⟩
              · exact ih _ ⟨g, hg', hh⟩
    obtain ⟨e, he⟩ := this fs a.funcs h
    exact ⟨e, by rw [he]; rfl⟩

/-- C84 ends at arguments with a pipe: `re("a|b")` is not one function, but two of names that nobody knows. -/
theorem C84_pipe_in_arguments : getAttributes Ex.ctx0 c!"port | re(\"a|b\")" =
    .ok [⟨c!"port", [], []⟩, ⟨c!"re(\"a", [], []⟩, ⟨c!"b\")", [], []⟩] := by decide +kernel

/-- the hypotheses of `C84_functions_attribute` are met, for both parts -/
example : ∀ a, groupAttr Ex.ctx0 c!"." true 0 a c!"functions" (pipeSource [(c!" ", ⟨c!"port", none⟩, c!" ")]) = .ok { a with
      funcs := a.funcs ++ [⟨c!"port", [], []⟩].filter (fun f => decide (f.name ∉ [c!"input", c!"output"]) && Ex.ctx0.isGroupFn f.name) } ∧
    ∃ e, groupAttr Ex.ctx0 c!"." true 0 a c!"functions" (pipeSource [(c!" ", ⟨c!"output", none⟩, c!" ")]) = .error e := by
  intro a
  constructor
  · refine (C84_functions_attribute Ex.ctx0 c!"." true 0 a c!"functions" (.inr (by decide)) [(c!" ", ⟨c!"port", none⟩, c!" ")] [⟨c!"port", [], []⟩] (by simp) ?_
      (.cons ⟨rfl, rfl, rfl⟩ .nil) (by decide +kernel)).1 (by decide)
    intro i hi
    simp only [List.mem_cons, List.not_mem_nil, or_false] at hi
    subst hi
    exact ⟨by decide, ⟨by decide, by decide, by intro o e; cases e⟩, by decide⟩
  · refine (C84_functions_attribute Ex.ctx0 c!"." true 0 a c!"functions" (.inr (by decide)) [(c!" ", ⟨c!"output", none⟩, c!" ")] [⟨c!"output", [], []⟩] (by simp) ?_
      (.cons ⟨rfl, rfl, rfl⟩ .nil) (by decide +kernel)).2 (by decide)
    intro i hi
    simp only [List.mem_cons, List.not_mem_nil, or_false] at hi
    subst hi
    exact ⟨by decide, ⟨by decide, by decide, by intro o e; cases e⟩, by decide⟩

example : getAttributes Ex.ctx0 c!" port | upper| resuball ( x )\t|f() " =
    .ok [⟨c!"port", [], []⟩, ⟨c!"upper", [], []⟩, ⟨c!"resuball", [.str c!" x "], []⟩, ⟨c!"f", [], []⟩] := by decide +kernel

example : getAttributes Ex.ctx0 (pipeSource [(c!" ", ⟨c!"port", none⟩, c!" "), ([], ⟨c!"contains", some c!"vlan"⟩, c!"\t"),
      ([], ⟨c!"f", some []⟩, [])]) = .ok [⟨c!"port", [], []⟩, ⟨c!"contains", [.str c!"vlan"], []⟩, ⟨c!"f", [], []⟩] := by
  apply C84_pipe
  · simp
  · intro i hi
    simp only [List.mem_cons, List.not_mem_nil, or_false] at hi
    rcases hi with rfl | rfl | rfl
    · exact ⟨by decide, ⟨by decide, by decide, by intro o e; cases e⟩, by decide⟩
    · exact ⟨by decide, ⟨by decide, by decide, by intro o e; cases e; decide⟩, by decide⟩
    · exact ⟨by decide, ⟨by decide, by decide, by intro o e; cases e; decide⟩, by decide⟩
  · exact .cons ⟨rfl, rfl, rfl⟩ (.cons ⟨rfl, Or.inr ⟨by decide, rfl⟩⟩ (.cons ⟨rfl, Or.inl ⟨rfl, rfl, rfl⟩⟩ .nil))

end Props
