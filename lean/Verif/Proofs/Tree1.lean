import Verif.Proofs.Whole3
import Verif.Spec.Tree2
import Verif.Spec.NestHits
/-! # Lemmas: loading of nested groups with plain lines -/

namespace TTP
open Py Spec Re

/-- name with an asterisk -/
def star (n : Str) : Str := n ++ c!"*"

/-- identity of a group with this index among its siblings -/
def gidOf (g : List Str) (index : Nat) : GId := (join c!"." (g.map star), index)

/-- what is known of the group `g` -/
structure InfoOk (id : List Str → GId) (g : List Str) (info : GInfo) : Prop where
  gid : info.gid = id g
  parent : info.parent = if g.dropLast = [] then none else some (id g.dropLast)
  path : info.path = g.map star
  funcs : info.funcs = []
  defaults : info.defaults = []

mutual
/-- the loaded group is this group of the template -/
def Built (id : List Str → GId) (p : List Str) : TGroup → Grp → Prop
  | .mk n ls _ cs _, .mk info st nm en hd gs =>
    InfoOk id (p ++ [n]) info ∧ (∃ l tl, ls = l :: tl ∧ st = [rxAt 0 l] ∧ nm = tl.map tplRx) ∧ en = [] ∧ hd = false ∧ BuiltAll id (p ++ [n]) cs gs
/-- the same for many groups -/
def BuiltAll (id : List Str → GId) (p : List Str) : List TGroup → List Grp → Prop
  | [], gs => gs = []
  | c :: cs, gs => ∃ g gs', gs = g :: gs' ∧ Built id p c g ∧ BuiltAll id p cs gs'
end

mutual
/-- the identities are those of the loader -/
def IdsOk (id : List Str → GId) (p : List Str) (index : Nat) : TGroup → Prop
  | .mk n _ _ cs _ => id (p ++ [n]) = gidOf (p ++ [n]) index ∧ IdsAll id (p ++ [n]) 0 cs
/-- the same for many groups -/
def IdsAll (id : List Str → GId) (p : List Str) (index : Nat) : List TGroup → Prop
  | [] => True
  | c :: cs => IdsOk id p index c ∧ IdsAll id p (index + 1) cs
end

/-! ## The loader -/

theorem groupAttrs_path (ctx : LoadCtx) (top : Bool) (index : Nat) (p : List Str) (n : Str) (hn : GroupName n) :
    groupAttrs ctx c!"." top index [(c!"name", n ++ c!"*")] ⟨p.map star, [], none, .str c!"_Not_Given_", false, [], [], []⟩ =
      .ok ⟨(p ++ [n]).map star, (gidOf (p ++ [n]) index).1, some (gidOf (p ++ [n]) index), .str c!"_Not_Given_", false, [], [], []⟩ := by
  obtain ⟨hn1, _, _, hn3⟩ := hn
  have hpre : startsWith (n ++ c!"*") c!"/" = false := by
    cases h : startsWith (n ++ c!"*") c!"/" with
    | false => rfl
    | true =>
      rw [isPrefixOf_iff'] at h
      obtain ⟨r, e⟩ := h
      obtain ⟨c, cs, ec⟩ := List.exists_cons_of_ne_nil hn1
      rw [ec] at e
      simp only [List.cons_append, List.cons.injEq] at e
      exact absurd e.1 (hn3 c (by simp [ec])).2.2.2
  have hsp : split c!"." (n ++ c!"*") = [n ++ c!"*"] := by
    rw [split_char]
    apply splitC_self
    simp only [List.mem_append, List.mem_singleton, not_or]
    exact ⟨fun h => (hn3 _ h).1 rfl, by decide⟩
  have l1 : lower c!"name" = c!"name" := by decide
  simp only [groupAttrs, groupAttr, l1, groupPath, hpre, splitPath, hsp]
  simp [pure_ok, ok_bind, gidOf, star]

theorem gidOf_ne (p : List Str) (n : Str) (index : Nat) : (gidOf (p ++ [n]) index).1 ≠ [] := by
  intro h
  simp only [gidOf, List.map_append, List.map_cons, List.map_nil] at h
  cases p with
  | nil => simp [join, star] at h
  | cons a p =>
    rw [join_append _ _ _ (by simp) (by simp)] at h
    simp [join, star] at h

theorem splitlines_pad (tpl : List TplLine) (ho : ∀ l ∈ tpl, l.OK) (pad : Str) (hp : ∀ c ∈ pad, Blank c) :
    Format.splitlines ('\n' :: ((tpl.map (fun l => l.source ++ c!"\n")).flatten ++ pad)) =
      [] :: (tpl.map TplLine.source ++ if pad = [] then [] else [pad]) := by
  have hpad : ∀ acc : Str, (∀ c ∈ pad, Blank c) → Format.splitlinesAux acc pad = if acc ++ pad = [] then [] else [acc ++ pad] := by
    intro acc h
    clear hp
    induction pad generalizing acc with
    | nil => cases acc <;> simp [Format.splitlinesAux]
    | cons c pad ih =>
      have hb := blank_noBreak c (h c (by simp))
      have := ih (acc ++ [c]) (fun c' h' => h c' (by simp [h']))
      rw [Format.splitlinesAux, if_neg (by rw [hb]; simp), this]
      · simp
      · intro cs e _
        subst e
        revert hb
        decide
  have key : ∀ tpl : List TplLine, (∀ l ∈ tpl, l.OK) →
      Format.splitlinesAux [] ((tpl.map (fun l => l.source ++ c!"\n")).flatten ++ pad) = tpl.map TplLine.source ++ if pad = [] then [] else [pad] := by
    intro tpl
    induction tpl with
    | nil => intro _; simpa using hpad [] hp
    | cons l tpl ih =>
      intro ho
      have := Format.splitlinesAux_break [] l.source ((tpl.map (fun l => l.source ++ c!"\n")).flatten ++ pad) (tpl_noBreak l (ho l (by simp)))
      simp only [List.map_cons, List.flatten_cons, List.append_assoc, List.cons_append, List.nil_append]
      rw [this, ih (fun l' hl => ho l' (by simp [hl]))]
      rfl
  have := Format.splitlinesAux_break [] [] ((tpl.map (fun l => l.source ++ c!"\n")).flatten ++ pad) (by simp)
  simp only [List.nil_append] at this
  unfold Format.splitlines
  rw [this, key tpl ho]

theorem loadLines_pad (ctx : LoadCtx) (tpl : List TplLine) (ho : ∀ l ∈ tpl, l.OK) (pad : Str) (hp : ∀ c ∈ pad, Blank c) (d : Dict Key Val) :
    loadLines ctx (.str c!"_Not_Given_") (tpl.map TplLine.source ++ if pad = [] then [] else [pad]) d = .ok (tpl.map tplRx, d) := by
  induction tpl with
  | nil =>
    by_cases h : pad = []
    · simp [h, loadLines, pure_ok]
    · have hs : lineSkipped pad = true := by
        rw [lineSkipped_iff]; left; intro c hc; exact blank_space c (hp c hc)
      simp [h, loadLines, hs, pure_ok]
  | cons l tpl ih =>
    simp only [List.map_cons, List.cons_append, loadLines, tpl_notSkipped l (ho l (by simp)), Bool.false_eq_true, if_false,
      loadLine_tpl ctx l (ho l (by simp)), ok_bind, ih (fun l' hl => ho l' (by simp [hl])), pure_ok, Option.toList_some,
      List.nil_append]

theorem getRegexes_plain (ctx : LoadCtx) (path : List Str) (name : Str) (gid : Option GId) (l : TplLine) (tpl : List TplLine)
    (ho : ∀ l' ∈ l :: tpl, l'.OK) (pad : Str) (hp : ∀ c ∈ pad, Blank c) :
    getRegexes ctx ⟨path, name, gid, .str c!"_Not_Given_", false, [], [], []⟩ false
      (some ('\n' :: (((l :: tpl).map (fun l => l.source ++ c!"\n")).flatten ++ pad))) ⟨⟨[], [], []⟩, [], false⟩ =
      .ok ⟨⟨[rxAt 0 l], tpl.map tplRx, []⟩, [], false⟩ := by
  have hskip : lineSkipped [] = true := by decide
  have hc := classify_tpl (tpl.map tplRx) (by
    intro r hr
    obtain ⟨l', _, rfl⟩ := List.mem_map.1 hr
    exact tplRx_action l') 0 ⟨[rxAt 0 l], [], []⟩
  simp only [getRegexes, splitlines_pad _ ho pad hp]
  rw [show loadLines ctx (.str c!"_Not_Given_") ([] :: ((l :: tpl).map TplLine.source ++ if pad = [] then [] else [pad])) [] =
    loadLines ctx (.str c!"_Not_Given_") ((l :: tpl).map TplLine.source ++ if pad = [] then [] else [pad]) [] from by
      simp only [loadLines, hskip, if_true],
    loadLines_pad ctx _ ho pad hp]
  simp only [ok_bind, List.map_cons, classify, tplRx_action, Action.isStart, reduceCtorEq, if_false, Bool.false_eq_true,
    decide_true, Bool.true_or, if_true, List.nil_append]
  rw [show ({ re := (tplRx l).re, vars := (tplRx l).vars, action := Action.start, isLine := (tplRx l).isLine } : LineRx) = rxAt 0 l from rfl,
    hc]
  simp [startDefault, Dict.has, Dict.get?, pure_ok]

mutual
/-- a group of the tree is loaded as it is meant -/
theorem loadGroup_tree (ctx : LoadCtx) (id : List Str → GId) (top : Bool) (p : List Str) (parent : Option GId) (index uid : Nat) (T : TGroup)
    (hT : T.OK) (hid : IdsOk id p index T) (hpar : parent = if p = [] then none else some (id p)) :
    ∃ G name uid', loadGroup ctx c!"." top (p.map star) parent index uid T.xml = .ok (⟨G, name, [], []⟩, uid') ∧ Built id p T G := by
  match T with
  | .mk n ls pad cs tail =>
    obtain ⟨hn, hls, hlo, hpad, htail, hcs⟩ := hT
    obtain ⟨l, tl, rfl⟩ := List.exists_cons_of_ne_nil hls
    obtain ⟨hid1, hid2⟩ := hid
    obtain ⟨gs, uid', hc, hb⟩ := loadChildren_tree ctx id (p ++ [n]) (by simp)
      ⟨(p ++ [n]).map star, (gidOf (p ++ [n]) index).1, some (gidOf (p ++ [n]) index), .str c!"_Not_Given_", false, [], [], []⟩ rfl 0 (uid + 1) cs hcs hid2
      ⟨⟨[rxAt 0 l], tl.map tplRx, []⟩, [], false⟩
    refine ⟨.mk ⟨uid, gidOf (p ++ [n]) index, parent, (p ++ [n]).map star, [], []⟩ [rxAt 0 l] (tl.map tplRx) [] false gs, (gidOf (p ++ [n]) index).1, uid', ?_, ?_⟩
    · have hanon : ∀ (path : List Str) (nm : Str), nm ≠ [] → ∀ gid,
          anonymousPath top index ⟨path, nm, gid, .str c!"_Not_Given_", false, [], [], []⟩ =
            ⟨path, nm, gid, .str c!"_Not_Given_", false, [], [], []⟩ := by
        intro path nm h gid
        simp [anonymousPath, h]
      rw [hid1] at hc
      simp only [TGroup.xml, loadGroup, groupAttrs_path ctx top index p n hn, ok_bind, hanon _ _ (gidOf_ne p n index),
        getRegexes_plain ctx _ _ _ l tl hlo pad hpad, Option.getD_some, hc, pure_ok]
    · refine ⟨⟨hid1.symm, ?_, rfl, rfl, rfl⟩, ⟨l, tl, rfl, rfl, rfl⟩, rfl, rfl, hb⟩
      simpa using hpar
/-- the child groups -/
theorem loadChildren_tree (ctx : LoadCtx) (id : List Str → GId) (p : List Str) (hp : p ≠ []) (a : GAttrs) (ha : a.path = p.map star) (index uid : Nat)
    (cs : List TGroup) (hcs : groupsOK cs) (hid : IdsAll id p index cs) (g : GState) :
    ∃ gs uid', loadChildren ctx c!"." a (id p) index uid (xmls cs) g = .ok (gs, g, uid') ∧ BuiltAll id p cs gs := by
  match cs with
  | [] => exact ⟨[], uid, by simp [xmls, loadChildren, pure_ok], rfl⟩
  | c :: cs =>
    obtain ⟨hc, _, hcs⟩ := hcs
    obtain ⟨hi1, hi2⟩ := hid
    obtain ⟨G, name, u1, h1, hb1⟩ := loadGroup_tree ctx id false p (some (id p)) index uid c hc hi1 (by simp [hp])
    obtain ⟨gs, u2, h2, hb2⟩ := loadChildren_tree ctx id p hp a ha (index + 1) u1 cs hcs hi2 g
    refine ⟨G :: gs, u2, ?_, G, gs, rfl, hb1, hb2⟩
    have htail : readTail ctx a c.xml.tail g = .ok g := by
      cases c with
      | mk n ls pad cs' tail =>
        have := hc.2.2.2.2.1
        have hs : strip tail = [] := (strip_eq_nil tail).2 this
        simp [TGroup.xml, Xml.tail, readTail, hs, pure_ok]
    simp only [xmls, loadChildren, ha, h1, ok_bind, htail, h2, pure_ok]
end

/-- all top groups -/
theorem loadGroups_tree (ctx : LoadCtx) (id : List Str → GId) (index uid : Nat) (tops : List TGroup) (hT : groupsOK tops) (hid : IdsAll id [] index tops) :
    ∃ gs, loadGroups ctx c!"." index uid (xmls tops) = .ok gs ∧ BuiltAll id [] tops (gs.map (·.grp)) := by
  induction tops generalizing index uid with
  | nil => exact ⟨[], by simp [xmls, loadGroups, pure_ok], rfl⟩
  | cons T tops ih =>
    obtain ⟨h1, _, h2⟩ := hT
    obtain ⟨hi1, hi2⟩ := hid
    obtain ⟨G, name, u1, e1, hb1⟩ := loadGroup_tree ctx id true [] none index uid T h1 hi1 (by simp)
    obtain ⟨gs, e2, hb2⟩ := ih (index + 1) u1 h2 hi2
    refine ⟨⟨index, name, [], G⟩ :: gs, ?_, G, gs.map (·.grp), rfl, hb1, hb2⟩
    simp only [List.map_nil] at e1
    simp only [xmls, loadGroups, e1, ok_bind, e2, pure_ok]

/-! ## Identities -/

/-- child groups -/
def kidsOf : TGroup → List TGroup
  | .mk _ _ _ cs _ => cs

/-- position among the siblings -/
def indexOf : List TGroup → List Str → Nat
  | _, [] => 0
  | cs, n :: rest =>
    match cs.find? (fun c => decide (c.name = n)) with
    | none => 0
    | some c => if rest = [] then cs.findIdx (fun c => decide (c.name = n)) else indexOf (kidsOf c) rest

/-- the identity of a group -/
def idOf (tops : List TGroup) (g : List Str) : GId := gidOf g (indexOf tops g)

theorem nodup_find (pre : List TGroup) (c : TGroup) (cs : List TGroup) (h : c.name ∉ pre.map TGroup.name) :
    (pre ++ c :: cs).find? (fun x => decide (x.name = c.name)) = some c ∧
    (pre ++ c :: cs).findIdx (fun x => decide (x.name = c.name)) = pre.length := by
  induction pre with
  | nil => simp [List.findIdx_cons]
  | cons a pre ih =>
    simp only [List.map_cons, List.mem_cons, not_or] at h
    have ha : decide (a.name = c.name) = false := by simpa using Ne.symm h.1
    obtain ⟨h1, h2⟩ := ih h.2
    simp [List.findIdx_cons, ha, h1, h2]

mutual
theorem idsOk_idOf (tops : List TGroup) (p : List Str) (sibs pre post : List TGroup) (T : TGroup) (hT : T.OK) (hs : sibs = pre ++ T :: post)
    (hpre : T.name ∉ pre.map TGroup.name) (hp : ∀ q, q ≠ [] → indexOf tops (p ++ q) = indexOf sibs q) :
    IdsOk (idOf tops) p pre.length T := by
  match T with
  | .mk n ls pad cs tail =>
    obtain ⟨h1, h2⟩ := nodup_find pre (.mk n ls pad cs tail) post hpre
    refine ⟨?_, ?_⟩
    · unfold idOf
      rw [hp [n] (by simp), hs]
      change _ = _ at h1
      rw [show (TGroup.mk n ls pad cs tail).name = n from rfl] at h1 h2
      simp only [indexOf, h1, h2, if_true]
    · apply idsAll_idOf tops (p ++ [n]) cs [] cs hT.2.2.2.2.2 rfl (by simp)
      intro q hq
      have := hp (n :: q) (by simp)
      simp only [List.append_assoc, List.singleton_append]
      rw [this, hs]
      change _ = _ at h1
      rw [show (TGroup.mk n ls pad cs tail).name = n from rfl] at h1 h2
      simp only [indexOf, h1, hq, if_false, kidsOf]
theorem idsAll_idOf (tops : List TGroup) (p : List Str) (sibs pre cs : List TGroup) (hcs : groupsOK cs) (hs : sibs = pre ++ cs)
    (hpre : ∀ c ∈ cs, c.name ∉ pre.map TGroup.name) (hp : ∀ q, q ≠ [] → indexOf tops (p ++ q) = indexOf sibs q) :
    IdsAll (idOf tops) p pre.length cs := by
  match cs with
  | [] => exact trivial
  | c :: cs =>
    obtain ⟨h1, h2, h3⟩ := hcs
    refine ⟨idsOk_idOf tops p sibs pre cs c h1 hs (hpre c (by simp)) hp, ?_⟩
    have := idsAll_idOf tops p sibs (pre ++ [c]) cs h3 (by simp [hs]) (by
      intro x hx
      simp only [List.map_append, List.map_cons, List.map_nil, List.mem_append, List.mem_singleton, not_or]
      refine ⟨hpre x (by simp [hx]), ?_⟩
      intro e
      exact h2 (List.mem_map.2 ⟨x, hx, e⟩)) hp
    simpa using this
end

theorem ids_tops (tops : List TGroup) (hT : groupsOK tops) : IdsAll (idOf tops) [] 0 tops :=
  idsAll_idOf tops [] tops [] tops hT rfl (by simp) (fun _ _ => rfl)

end TTP
