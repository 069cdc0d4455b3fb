import Verif.Proofs.Rich3
import Verif.Proofs.Tree1
import Verif.Spec.RichTree
/-! # Lemmas: loading of nested groups with rich lines -/

namespace TTP
open Py Spec Re

/-- what is known of the group `g` with these lines -/
structure RInfoOk (id : List Str → GId) (g : List Str) (ls : List RLine) (info : GInfo) : Prop where
  gid : info.gid = id g
  parent : info.parent = if g.dropLast = [] then none else some (id g.dropLast)
  path : info.path = g.map star
  funcs : info.funcs = []
  defaults : info.defaults = richDefaults ls

mutual
/-- the loaded group is this group of the template -/
def RBuilt (id : List Str → GId) (p : List Str) : RGroup → Grp → Prop
  | .mk n ls _ cs _, .mk info st nm en hd gs =>
    RInfoOk id (p ++ [n]) ls info ∧ st = selRx .start 0 ls ∧ nm = selRx .normal 0 ls ∧ en = [] ∧ hd = false ∧ RBuiltAll id (p ++ [n]) cs gs
/-- the same for many groups -/
def RBuiltAll (id : List Str → GId) (p : List Str) : List RGroup → List Grp → Prop
  | [], gs => gs = []
  | c :: cs, gs => ∃ g gs', gs = g :: gs' ∧ RBuilt id p c g ∧ RBuiltAll id p cs gs'
end

mutual
/-- the identities are those of the loader -/
def RIdsOk (id : List Str → GId) (p : List Str) (index : Nat) : RGroup → Prop
  | .mk n _ _ cs _ => id (p ++ [n]) = gidOf (p ++ [n]) index ∧ RIdsAll id (p ++ [n]) 0 cs
/-- the same for many groups -/
def RIdsAll (id : List Str → GId) (p : List Str) (index : Nat) : List RGroup → Prop
  | [] => True
  | c :: cs => RIdsOk id p index c ∧ RIdsAll id p (index + 1) cs
end

/-! ## The loader -/

theorem splitlines_rpad (ctx : LoadCtx) (tpl : List RLine) (ho : ∀ l ∈ tpl, l.OK ctx) (pad : Str) (hp : ∀ c ∈ pad, Blank c) :
    Format.splitlines ('\n' :: ((tpl.map (fun l => l.source ++ c!"\n")).flatten ++ pad)) =
      [] :: (tpl.map RLine.source ++ if pad = [] then [] else [pad]) := by
  have hpad : ∀ acc : Str, (∀ c ∈ pad, Blank c) → Format.splitlinesAux acc pad = if acc ++ pad = [] then [] else [acc ++ pad] := by
    intro acc h
    clear hp
    induction pad generalizing acc with
    | nil => cases acc <;> simp [Format.splitlinesAux]
    | cons c pad ih =>
      have hb := blank_noBreak c (h c (by simp))
      have := ih (acc ++ [c]) (fun c' h' => h c' (by simp [h']))
      rw [Format.splitlinesAux, if_neg (by rw [hb]; simp), this]
      · simp
      · intro cs e _
        subst e
        revert hb
        decide
  have key : ∀ tpl : List RLine, (∀ l ∈ tpl, l.OK ctx) →
      Format.splitlinesAux [] ((tpl.map (fun l => l.source ++ c!"\n")).flatten ++ pad) = tpl.map RLine.source ++ if pad = [] then [] else [pad] := by
    intro tpl
    induction tpl with
    | nil => intro _; simpa using hpad [] hp
    | cons l tpl ih =>
      intro ho
      have := Format.splitlinesAux_break [] l.source ((tpl.map (fun l => l.source ++ c!"\n")).flatten ++ pad) (rich_noBreak ctx l (ho l (by simp)))
      simp only [List.map_cons, List.flatten_cons, List.append_assoc, List.cons_append, List.nil_append]
      rw [this, ih (fun l' hl => ho l' (by simp [hl]))]
      rfl
  have := Format.splitlinesAux_break [] [] ((tpl.map (fun l => l.source ++ c!"\n")).flatten ++ pad) (by simp)
  simp only [List.nil_append] at this
  unfold Format.splitlines
  rw [this, key tpl ho]

theorem loadLines_rpad (ctx : LoadCtx) (hp : ctx.patterns = getPattern) (hre : ctx.re = ReText.compile) (tpl : List RLine)
    (ho : ∀ l ∈ tpl, l.OK ctx) (pad : Str) (hpad : ∀ c ∈ pad, Blank c) (d : Dict Key Val) :
    loadLines ctx (.str c!"_Not_Given_") (tpl.map RLine.source ++ if pad = [] then [] else [pad]) d =
      .ok (tpl.map richRx, tpl.foldl (fun d l => lineDefaults l d) d) := by
  induction tpl generalizing d with
  | nil =>
    by_cases h : pad = []
    · simp [h, loadLines, pure_ok]
    · have hs : lineSkipped pad = true := by
        rw [lineSkipped_iff]; left; intro c hc; exact blank_space c (hpad c hc)
      simp [h, loadLines, hs, pure_ok]
  | cons l tpl ih =>
    simp only [List.map_cons, List.cons_append, loadLines, rich_notSkipped ctx l (ho l (by simp)), Bool.false_eq_true, if_false,
      loadLine_rich ctx hp hre l (ho l (by simp)), ok_bind, ih (fun l' hl => ho l' (by simp [hl])), pure_ok, Option.toList_some,
      List.nil_append, List.foldl_cons]

theorem sel_stop_nil (ls : List RLine) (h : ∀ (j : Nat) (l : RLine), ls[j]? = some l → kindOf j l ≠ .stop) : selRx .stop 0 ls = [] := by
  unfold selRx
  cases hs : sel .stop 0 ls with
  | nil => rfl
  | cons x xs =>
    obtain ⟨j, l⟩ := x
    have := (mem_sel .stop ls 0 j l).1 (by rw [hs]; simp)
    exact absurd this.2.2 (h j l (by simpa using this.2.1))

theorem getRegexes_rich (ctx : LoadCtx) (hp : ctx.patterns = getPattern) (hre : ctx.re = ReText.compile) (path : List Str) (name : Str)
    (gid : Option GId) (ls : List RLine) (hls : LinesOK ctx ls) (pad : Str) (hpad : ∀ c ∈ pad, Blank c) :
    getRegexes ctx ⟨path, name, gid, .str c!"_Not_Given_", false, [], [], []⟩ false
      (some ('\n' :: ((ls.map (fun l => l.source ++ c!"\n")).flatten ++ pad))) ⟨⟨[], [], []⟩, [], false⟩ =
      .ok ⟨⟨selRx .start 0 ls, selRx .normal 0 ls, []⟩, richDefaults ls, false⟩ := by
  have hskip : lineSkipped [] = true := by decide
  have hc := classify_rich ctx ls hls.lines 0 ⟨[], [], []⟩
  have hsd : startDefault (selRx .start 0 ls) (richDefaults ls) = false := by
    cases h : startDefault (selRx .start 0 ls) (richDefaults ls) with
    | false => rfl
    | true => exact absurd ((startDefault_rich ls).1 h) hls.noStartDefault
  have hdf : ls.foldl (fun d l => lineDefaults l d) [] = richDefaults ls := foldl_richDefaults ls []
  simp only [getRegexes, splitlines_rpad ctx _ hls.lines pad hpad]
  rw [show loadLines ctx (.str c!"_Not_Given_") ([] :: (ls.map RLine.source ++ if pad = [] then [] else [pad])) [] =
    loadLines ctx (.str c!"_Not_Given_") (ls.map RLine.source ++ if pad = [] then [] else [pad]) [] from by
      simp only [loadLines, hskip, if_true],
    loadLines_rpad ctx hp hre _ hls.lines pad hpad]
  simp only [ok_bind, hc, List.nil_append, pure_ok, Bool.false_or, hdf, hsd, sel_stop_nil ls hls.noEnd]

mutual
/-- a group of the tree is loaded as it is meant -/
theorem loadGroup_rtree (ctx : LoadCtx) (hp : ctx.patterns = getPattern) (hre : ctx.re = ReText.compile) (id : List Str → GId) (top : Bool)
    (p : List Str) (parent : Option GId) (index uid : Nat) (T : RGroup)
    (hT : T.OK ctx) (hid : RIdsOk id p index T) (hpar : parent = if p = [] then none else some (id p)) :
    ∃ G name uid', loadGroup ctx c!"." top (p.map star) parent index uid T.xml = .ok (⟨G, name, [], []⟩, uid') ∧ RBuilt id p T G := by
  match T with
  | .mk n ls pad cs tail =>
    obtain ⟨hn, hls, hpad, htail, hcs⟩ := hT
    obtain ⟨hid1, hid2⟩ := hid
    obtain ⟨gs, uid', hc, hb⟩ := loadChildren_rtree ctx hp hre id (p ++ [n]) (by simp)
      ⟨(p ++ [n]).map star, (gidOf (p ++ [n]) index).1, some (gidOf (p ++ [n]) index), .str c!"_Not_Given_", false, [], [], []⟩ rfl 0 (uid + 1) cs hcs hid2
      ⟨⟨selRx .start 0 ls, selRx .normal 0 ls, []⟩, richDefaults ls, false⟩
    refine ⟨.mk ⟨uid, gidOf (p ++ [n]) index, parent, (p ++ [n]).map star, [], richDefaults ls⟩ (selRx .start 0 ls) (selRx .normal 0 ls) [] false gs,
      (gidOf (p ++ [n]) index).1, uid', ?_, ?_⟩
    · have hanon : ∀ (path : List Str) (nm : Str), nm ≠ [] → ∀ gid,
          anonymousPath top index ⟨path, nm, gid, .str c!"_Not_Given_", false, [], [], []⟩ =
            ⟨path, nm, gid, .str c!"_Not_Given_", false, [], [], []⟩ := by
        intro path nm h gid
        simp [anonymousPath, h]
      rw [hid1] at hc
      simp only [RGroup.xml, loadGroup, groupAttrs_path ctx top index p n hn, ok_bind, hanon _ _ (gidOf_ne p n index),
        getRegexes_rich ctx hp hre _ _ _ ls hls pad hpad, Option.getD_some, hc, pure_ok]
    · refine ⟨⟨hid1.symm, ?_, rfl, rfl, rfl⟩, rfl, rfl, rfl, rfl, hb⟩
      simpa using hpar
/-- the child groups -/
theorem loadChildren_rtree (ctx : LoadCtx) (hp : ctx.patterns = getPattern) (hre : ctx.re = ReText.compile) (id : List Str → GId)
    (p : List Str) (hne : p ≠ []) (a : GAttrs) (ha : a.path = p.map star) (index uid : Nat)
    (cs : List RGroup) (hcs : richGroupsOK ctx cs) (hid : RIdsAll id p index cs) (g : GState) :
    ∃ gs uid', loadChildren ctx c!"." a (id p) index uid (richXmls cs) g = .ok (gs, g, uid') ∧ RBuiltAll id p cs gs := by
  match cs with
  | [] => exact ⟨[], uid, by simp [richXmls, loadChildren, pure_ok], rfl⟩
  | c :: cs =>
    obtain ⟨hc, _, hcs⟩ := hcs
    obtain ⟨hi1, hi2⟩ := hid
    obtain ⟨G, name, u1, h1, hb1⟩ := loadGroup_rtree ctx hp hre id false p (some (id p)) index uid c hc hi1 (by simp [hne])
    obtain ⟨gs, u2, h2, hb2⟩ := loadChildren_rtree ctx hp hre id p hne a ha (index + 1) u1 cs hcs hi2 g
    refine ⟨G :: gs, u2, ?_, G, gs, rfl, hb1, hb2⟩
    have htail : readTail ctx a c.xml.tail g = .ok g := by
      cases c with
      | mk n ls pad cs' tail =>
        have := hc.2.2.2.1
        have hs : strip tail = [] := (strip_eq_nil tail).2 this
        simp [RGroup.xml, Xml.tail, readTail, hs, pure_ok]
    simp only [richXmls, loadChildren, ha, h1, ok_bind, htail, h2, pure_ok]
end

/-- all top groups -/
theorem loadGroups_rtree (ctx : LoadCtx) (hp : ctx.patterns = getPattern) (hre : ctx.re = ReText.compile) (id : List Str → GId) (index uid : Nat)
    (tops : List RGroup) (hT : richGroupsOK ctx tops) (hid : RIdsAll id [] index tops) :
    ∃ gs, loadGroups ctx c!"." index uid (richXmls tops) = .ok gs ∧ RBuiltAll id [] tops (gs.map (·.grp)) := by
  induction tops generalizing index uid with
  | nil => exact ⟨[], by simp [richXmls, loadGroups, pure_ok], rfl⟩
  | cons T tops ih =>
    obtain ⟨h1, _, h2⟩ := hT
    obtain ⟨hi1, hi2⟩ := hid
    obtain ⟨G, name, u1, e1, hb1⟩ := loadGroup_rtree ctx hp hre id true [] none index uid T h1 hi1 (by simp)
    obtain ⟨gs, e2, hb2⟩ := ih (index + 1) u1 h2 hi2
    refine ⟨⟨index, name, [], G⟩ :: gs, ?_, G, gs.map (·.grp), rfl, hb1, hb2⟩
    simp only [List.map_nil] at e1
    simp only [richXmls, loadGroups, e1, ok_bind, e2, pure_ok]

/-! ## Identities -/

/-- child groups -/
def rkidsOf : RGroup → List RGroup
  | .mk _ _ _ cs _ => cs

/-- position among the siblings -/
def rindexOf : List RGroup → List Str → Nat
  | _, [] => 0
  | cs, n :: rest =>
    match cs.find? (fun c => decide (c.name = n)) with
    | none => 0
    | some c => if rest = [] then cs.findIdx (fun c => decide (c.name = n)) else rindexOf (rkidsOf c) rest

/-- the identity of a group -/
def ridOf (tops : List RGroup) (g : List Str) : GId := gidOf g (rindexOf tops g)

theorem rnodup_find (pre : List RGroup) (c : RGroup) (cs : List RGroup) (h : c.name ∉ pre.map RGroup.name) :
    (pre ++ c :: cs).find? (fun x => decide (x.name = c.name)) = some c ∧
    (pre ++ c :: cs).findIdx (fun x => decide (x.name = c.name)) = pre.length := by
  induction pre with
  | nil => simp [List.findIdx_cons]
  | cons a pre ih =>
    simp only [List.map_cons, List.mem_cons, not_or] at h
    have ha : decide (a.name = c.name) = false := by simpa using Ne.symm h.1
    obtain ⟨h1, h2⟩ := ih h.2
    simp [List.findIdx_cons, ha, h1, h2]

mutual
theorem ridsOk_ridOf (ctx : LoadCtx) (tops : List RGroup) (p : List Str) (sibs pre post : List RGroup) (T : RGroup) (hT : T.OK ctx) (hs : sibs = pre ++ T :: post)
    (hpre : T.name ∉ pre.map RGroup.name) (hp : ∀ q, q ≠ [] → rindexOf tops (p ++ q) = rindexOf sibs q) :
    RIdsOk (ridOf tops) p pre.length T := by
  match T with
  | .mk n ls pad cs tail =>
    obtain ⟨h1, h2⟩ := rnodup_find pre (.mk n ls pad cs tail) post hpre
    refine ⟨?_, ?_⟩
    · unfold ridOf
      rw [hp [n] (by simp), hs]
      change _ = _ at h1
      rw [show (RGroup.mk n ls pad cs tail).name = n from rfl] at h1 h2
      simp only [rindexOf, h1, h2, if_true]
    · apply ridsAll_ridOf ctx tops (p ++ [n]) cs [] cs hT.2.2.2.2 rfl (by simp)
      intro q hq
      have := hp (n :: q) (by simp)
      simp only [List.append_assoc, List.singleton_append]
      rw [this, hs]
      change _ = _ at h1
      rw [show (RGroup.mk n ls pad cs tail).name = n from rfl] at h1 h2
      simp only [rindexOf, h1, hq, if_false, rkidsOf]
theorem ridsAll_ridOf (ctx : LoadCtx) (tops : List RGroup) (p : List Str) (sibs pre cs : List RGroup) (hcs : richGroupsOK ctx cs) (hs : sibs = pre ++ cs)
    (hpre : ∀ c ∈ cs, c.name ∉ pre.map RGroup.name) (hp : ∀ q, q ≠ [] → rindexOf tops (p ++ q) = rindexOf sibs q) :
    RIdsAll (ridOf tops) p pre.length cs := by
  match cs with
  | [] => exact trivial
  | c :: cs =>
    obtain ⟨h1, h2, h3⟩ := hcs
    refine ⟨ridsOk_ridOf ctx tops p sibs pre cs c h1 hs (hpre c (by simp)) hp, ?_⟩
    have := ridsAll_ridOf ctx tops p sibs (pre ++ [c]) cs h3 (by simp [hs]) (by
      intro x hx
      simp only [List.map_append, List.map_cons, List.map_nil, List.mem_append, List.mem_singleton, not_or]
      refine ⟨hpre x (by simp [hx]), ?_⟩
      intro e
      exact h2 (List.mem_map.2 ⟨x, hx, e⟩)) hp
    simpa using this
end

theorem rids_tops (ctx : LoadCtx) (tops : List RGroup) (hT : richGroupsOK ctx tops) : RIdsAll (ridOf tops) [] 0 tops :=
  ridsAll_ridOf ctx tops [] tops [] tops hT rfl (by simp) (fun _ _ => rfl)

end TTP
