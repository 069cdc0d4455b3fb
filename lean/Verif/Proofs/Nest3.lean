import Verif.Proofs.Nest2
import Verif.Spec.NestHits
/-!
# Lemmas: the results machine and the desk go together
-/

namespace TTP
open Py Spec

/-! ### paths of groups -/

theorem parsePath_stars (g : List Str) (h : ∀ n ∈ g, '*' ∉ n) : parsePath (g.map (· ++ c!"*")) = g.map (fun n => ⟨n, 1⟩) := by
  unfold parsePath
  rw [List.map_map]
  apply List.map_congr_left
  intro n hn
  have hts : trailingStars (n ++ c!"*") = 1 := by
    have hnil : n.reverse.takeWhile (· == '*') = [] := by
      cases hrv : n.reverse with
      | nil => rfl
      | cons c cs =>
        have : c ∈ n := by rw [← List.mem_reverse, hrv]; simp
        rw [List.takeWhile_cons_of_neg]
        simp only [beq_iff_eq]
        intro e
        subst e
        exact h n hn this
    simp [trailingStars, hnil]
  simp [hts]

theorem pkeys_names (ti : Bool) (g : List Str) : pkeys ti (g.map (fun n => (⟨n, 1⟩ : PItem))) = g.map (pathKey ti) := by
  unfold pkeys
  rw [List.map_map]
  apply List.map_congr_left
  intro n _
  simp [keyOf, pathKey]

theorem lists_names (g : List Str) : Lists (g.map (fun n => (⟨n, 1⟩ : PItem))) := by
  intro p hp
  obtain ⟨n, _, rfl⟩ := List.mem_map.1 hp
  rfl

theorem nn_names (g : List Str) (h : ∀ n ∈ g, n ≠ c!"_") : NN (g.map (fun n => (⟨n, 1⟩ : PItem))) := by
  intro p hp
  obtain ⟨n, hn, rfl⟩ := List.mem_map.1 hp
  exact h n hn

theorem static_names (g : List Str) (h : ∀ n ∈ g, '{' ∉ n) : StaticPath (g.map (· ++ c!"*")) := by
  intro item hi
  obtain ⟨n, hn, rfl⟩ := List.mem_map.1 hi
  simp only [List.mem_append, List.mem_singleton, not_or]
  exact ⟨h n hn, by decide⟩

theorem starred_inj (g g' : List Str) (h : g.map (· ++ c!"*") = g'.map (· ++ c!"*")) : g = g' := by
  induction g generalizing g' with
  | nil => cases g' with
    | nil => rfl
    | cons => simp at h
  | cons n g ih =>
    cases g' with
    | nil => simp at h
    | cons n' g' =>
      simp only [List.map_cons, List.cons.injEq] at h
      rw [ih g' h.2, (List.append_left_inj _).1 h.1]

/-! ### open groups -/

/-- each open group is the parent of the one before it -/
def OpenOk : List (List Str) → Prop
  | [] => True
  | [_] => True
  | x :: y :: r => y = x.dropLast ∧ OpenOk (y :: r)

theorem openOk_tail {x : List Str} {r : List (List Str)} (h : OpenOk (x :: r)) : OpenOk r := by
  cases r with
  | nil => trivial
  | cons y r => exact h.2

theorem openOk_prefix (x : List Str) (r : List (List Str)) (h : OpenOk (x :: r)) (g : List Str) (hg : g ∈ x :: r) : g <+: x := by
  induction r generalizing x with
  | nil => rw [List.mem_singleton.1 hg]; exact List.prefix_refl _
  | cons y r ih =>
    rcases List.mem_cons.1 hg with rfl | hg
    · exact List.prefix_refl _
    · have h1 := ih y (openOk_tail h) hg
      rw [h.1] at h1
      exact h1.trans (List.dropLast_prefix _)

theorem openOk_dropWhile (p : List Str → Bool) (l : List (List Str)) (h : OpenOk l) : OpenOk (l.dropWhile p) := by
  induction l with
  | nil => trivial
  | cons x l ih =>
    rw [List.dropWhile_cons]
    split
    · exact ih (openOk_tail h)
    · exact h

theorem mem_dropWhile (p : List Str → Bool) (l : List (List Str)) (x : List Str) (h : x ∈ l.dropWhile p) : x ∈ l :=
  (List.dropWhile_suffix p).subset h

theorem dropWhile_head (l : List (List Str)) (g : List Str) (h : g ∈ l) : ∃ r, l.dropWhile (· ≠ g) = g :: r := by
  induction l with
  | nil => cases h
  | cons x l ih =>
    rw [List.dropWhile_cons]
    by_cases hx : x = g
    · subst hx; exact ⟨l, by simp⟩
    · rw [if_pos (by simpa using hx)]
      exact ih (by simpa [Ne.symm hx] using h)

theorem dropWhile_none (l : List (List Str)) (g : List Str) (h : g ∉ l) : l.dropWhile (· ≠ g) = [] := by
  induction l with
  | nil => rfl
  | cons x l ih =>
    rw [List.dropWhile_cons, if_pos (by simp; intro e; exact h (by simp [e]))]
    exact ih (fun hm => h (by simp [hm]))

/-- a late line leaves open what a start of its group would -/
theorem reopen (l : List (List Str)) (h : OpenOk l) (hne : [] ∉ l) (g : List Str) (hg : g ∈ l) :
    l.dropWhile (· ≠ g) = g :: (if g.dropLast ∈ l then l.dropWhile (· ≠ g.dropLast) else []) := by
  induction l with
  | nil => cases hg
  | cons x l ih =>
    by_cases hx : x = g
    · subst hx
      have hd : x ≠ x.dropLast := by
        intro e
        have hl := congrArg List.length e
        simp only [List.length_dropLast] at hl
        have : x ≠ [] := fun e => hne (by simp [e])
        have := List.length_pos_iff.2 this
        omega
      rw [List.dropWhile_cons, if_neg (by simp)]
      congr 1
      cases l with
      | nil => rw [if_neg (by simpa using hd.symm)]
      | cons y r =>
        obtain ⟨e, _⟩ := h
        rw [if_pos (by simp [e]), List.dropWhile_cons, if_pos (by simpa using hd), List.dropWhile_cons, if_neg (by simp [e])]
    · have hgl : g ∈ l := by simpa [Ne.symm hx] using hg
      have hlen : g.length < x.length := by
        have hp := openOk_prefix x l h g hg
        have := hp.length_le
        rcases Nat.lt_or_ge g.length x.length with h | h
        · exact h
        · exact absurd (hp.eq_of_length (by omega)).symm hx
      have hd : x ≠ g.dropLast := by
        intro e
        have hl := congrArg List.length e
        simp only [List.length_dropLast] at hl
        omega
      rw [List.dropWhile_cons, if_pos (by simpa using hx), ih (openOk_tail h) (fun hm => hne (by simp [hm])) hgl]
      congr 1
      by_cases hm : g.dropLast ∈ l
      · rw [if_pos hm, if_pos (by simp [hm]), List.dropWhile_cons, if_pos (by simpa using hd)]
      · rw [if_neg hm, if_neg (by simp [hm, Ne.symm hd])]

theorem openOk_start (l : List (List Str)) (h : OpenOk l) (g : List Str) :
    OpenOk (g :: (if g.dropLast ∈ l then l.dropWhile (· ≠ g.dropLast) else [])) := by
  split
  · rename_i hm
    obtain ⟨r, hr⟩ := dropWhile_head l _ hm
    have := openOk_dropWhile (· ≠ g.dropLast) l h
    rw [hr] at this ⊢
    exact ⟨rfl, this⟩
  · trivial

theorem trace_opens (groups : List (List Str)) (id : List Str → GId) (dflt : List Str → Dict Key Val) (hne : [] ∉ groups)
    (hpar : ∀ g ∈ groups, g.dropLast ≠ [] → g.dropLast ∈ groups) (hid : ∀ g ∈ groups, ∀ g' ∈ groups, id g = id g' → g = g')
    (g : List Str) (hg : g ∈ groups) (re : RE) (hre : LineOf id dflt g re) (l : List (List Str)) (hl : ∀ x ∈ l, x ∈ groups) :
    trace re (l.map id) = (g :: (if g.dropLast ∈ l then l.dropWhile (· ≠ g.dropLast) else [])).map id := by
  induction l with
  | nil => simp [trace, hre.gid]
  | cons x l ih =>
    have ih' := ih (fun y hy => hl y (by simp [hy]))
    have hx := hl x (by simp)
    rw [List.map_cons, trace, hre.parent, hre.line]
    by_cases hx' : x = g.dropLast
    · subst hx'
      have : g.dropLast ≠ [] := fun e => hne (by rw [e] at hx; exact hx)
      simp [this, hre.gid]
    · have hn : ¬ (if g.dropLast = [] then none else some (id g.dropLast)) = some (id x) := by
        split
        · simp
        · rename_i hd
          intro e
          simp only [Option.some.injEq] at e
          exact hx' (hid _ hx _ (hpar g hg hd) e.symm)
      rw [if_neg hn]
      simp only [Bool.false_eq_true, if_false]
      rw [ih']
      congr 2
      by_cases hm : g.dropLast ∈ l
      · rw [if_pos hm, if_pos (by simp [hm]), List.dropWhile_cons, if_pos (by simpa using hx')]
      · rw [if_neg hm, if_neg (by simp [hm, Ne.symm hx'])]

/-! ### the two states go together -/

section
variable (ti : Bool) (groups : List (List Str)) (id : List Str → GId) (dflt : List Str → Dict Key Val)

/-- the current record of the machine is the newest record of the desk -/
structure RecSim (ms : MS) (D : Desk) (r : NRec) (rs : List NRec) : Prop where
  recs : D.recs = r :: rs
  record : ms.record = ⟨r.data, r.group.map (· ++ c!"*"), [], if r.late then [] else dflt r.group, some (id r.group), r.late⟩
  opens : ∃ l, D.opens = r.group :: l
  results : ms.results = .dict (treeOf ti dflt rs)
  group : r.group ∈ groups
  late : r.late = true → listAt (r.group.map (pathKey ti)) (treeOf ti dflt rs) ≠ []
  data : Plain ti groups r.data
  tree : ∀ g ∈ groups, OkAt (g.map (pathKey ti)) (treeOf ti dflt rs)

/-- the machine and the desk -/
structure Sim (ms : MS) (D : Desk) : Prop where
  started : ms.started = D.opens.map id
  ended : ∀ g ∈ groups, id g ∈ ms.ended ↔ g ∈ D.off
  offs : ∀ g ∈ D.off, g ∈ groups
  opens : ∀ g ∈ D.opens, g ∈ groups
  chain : OpenOk D.opens
  cur : (D.recs = [] ∧ ms.record = Record.empty ∧ D.opens = [] ∧ ms.results = .dict []) ∨ ∃ r rs, RecSim ti groups id dflt ms D r rs

end

theorem plain_flat {ti : Bool} {groups : List (List Str)} {d : Dict Key Val} (h : Plain ti groups d) : Flat d :=
  ⟨h.1, fun kv hkv => (h.2 kv hkv).1⟩

theorem plain_keys {ti : Bool} {groups : List (List Str)} {d : Dict Key Val} (h : Plain ti groups d) (g : List Str) (hg : g ∈ groups) :
    ∀ k ∈ g.map (pathKey ti), k ∉ Dict.keys d := by
  intro k hk hm
  obtain ⟨n, hn, rfl⟩ := List.mem_map.1 hk
  obtain ⟨kv, hkv, e⟩ := List.mem_map.1 hm
  exact (h.2 kv hkv).2 g hg n hn e

theorem plain_update {ti : Bool} {groups : List (List Str)} {d e : Dict Key Val} (h : Plain ti groups d) (he : Plain ti groups e) :
    Plain ti groups (Dict.update d e) := by
  refine ⟨Dict.WF_update _ _ h.1, fun kv hkv => ?_⟩
  rcases mem_update _ _ _ hkv with h' | h'
  · exact h.2 kv h'
  · exact he.2 kv h'

theorem plain_fill {ti : Bool} {groups : List (List Str)} {d e : Dict Key Val} (h : Plain ti groups d) (he : Plain ti groups e) :
    Plain ti groups (fill d e) := by
  unfold fill
  have : ∀ (e' : Dict Key Val) (d : Dict Key Val), Plain ti groups d → (∀ kv ∈ e', NotDict kv.2 ∧ ∀ g ∈ groups, ∀ n ∈ g, kv.1 ≠ pathKey ti n) →
      Plain ti groups (e'.foldl (fun acc kv => Dict.setdefault acc kv.1 kv.2) d) := by
    intro e'
    induction e' with
    | nil => intro d hd _; exact hd
    | cons a e' ih =>
      intro d hd hp
      rw [List.foldl_cons]
      apply ih _ _ (fun kv hkv => hp kv (by simp [hkv]))
      unfold Dict.setdefault
      split
      · exact hd
      · refine ⟨Dict.WF_set _ _ _ hd.1, fun kv hkv => ?_⟩
        rcases mem_set _ _ _ _ hkv with h' | rfl
        · exact hd.2 kv h'
        · exact hp a (by simp)
  exact this e d h he.2

theorem addRec_tree (ti : Bool) (groups : List (List Str)) (id : List Str → GId) (dflt : List Str → Dict Key Val)
    (hok : GroupsOK ti groups id dflt) (r : NRec) (hr : r.group ∈ groups) (hd : Plain ti groups r.data) (t : Dict Key Val)
    (ht : ∀ g ∈ groups, OkAt (g.map (pathKey ti)) t) : ∀ g ∈ groups, OkAt (g.map (pathKey ti)) (addRec ti dflt r t) := by
  intro g hg
  unfold addRec
  apply okAt_inLast _ _ _ _ (ht _ hr) (ht g hg)
  intro us xs hu hl
  split
  · exact lastOk_amend us _ (plain_flat hd) (fun k hk => plain_keys hd g hg k (hu.subset hk)) xs hl
  · have hf := plain_fill hd (hok.dflts _ hr)
    exact lastOk_put us _ (plain_flat hf) (fun k hk => plain_keys hf g hg k (hu.subset hk)) xs hl

theorem flush_rec (ti : Bool) (gf : GroupFns) (groups : List (List Str)) (id : List Str → GId) (dflt : List Str → Dict Key Val)
    (hok : GroupsOK ti groups id dflt) (ms : MS) (D : Desk) (r : NRec) (rs : List NRec) (h : RecSim ti groups id dflt ms D r rs) (st : List GId)
    (en : List GId) :
    flush ti gf { ms with started := st, ended := en } =
      .ok { ms with started := st, ended := en, results := .dict (treeOf ti dflt (r :: rs)) } := by
  obtain ⟨h1, h2, h3, h4, h5, h6, h7, h8⟩ := h
  have hnames := hok.names _ h5
  have hgne : r.group ≠ [] := fun e => hok.ne (by rw [← e]; exact h5)
  have hst : StaticPath (r.group.map (· ++ c!"*")) := static_names _ (fun n hn => (hnames n hn).2.1)
  have hpp : parsePath (r.group.map (· ++ c!"*")) = r.group.map (fun n => ⟨n, 1⟩) := parsePath_stars _ (fun n hn => (hnames n hn).2.2)
  obtain ⟨n, ns, hgn⟩ := List.exists_cons_of_ne_nil hgne
  have hpk : pkeys ti (⟨n, 1⟩ :: ns.map (fun n => (⟨n, 1⟩ : PItem))) = r.group.map (pathKey ti) := by
    have := pkeys_names ti r.group
    rw [hgn] at this ⊢
    exact this
  have hnn : NN (⟨n, 1⟩ :: ns.map (fun n => (⟨n, 1⟩ : PItem))) := by
    have := nn_names r.group (fun n hn => (hnames n hn).1)
    rw [hgn] at this
    exact this
  have hli : Lists (⟨n, 1⟩ :: ns.map (fun n => (⟨n, 1⟩ : PItem))) := by
    have := lists_names r.group
    rw [hgn] at this
    exact this
  have hokat : OkAt (pkeys ti (⟨n, 1⟩ :: ns.map (fun n => (⟨n, 1⟩ : PItem)))) (treeOf ti dflt rs) := by
    rw [hpk]; exact h8 _ h5
  have hppn : parsePath (r.group.map (· ++ c!"*")) = ⟨n, 1⟩ :: ns.map (fun n => (⟨n, 1⟩ : PItem)) := by rw [hpp, hgn]; rfl
  cases hl : r.late with
  | false =>
    rw [flush_simple ti gf _ (by simp [h2]) (by simp [h2, hl]) (by simp only [h2]; exact hst) (by simp [h2, hgne])]
    simp only [h2, hl, Bool.false_eq_true, if_false, h4, hppn]
    rw [save_put ti _ _ _ hnn hli _ hokat, hpk]
    simp only [ok_bind, pure_ok, treeOf, List.foldr_cons, addRec, hl, Bool.false_eq_true, if_false]
    rfl
  | true =>
    have hne := h6 hl
    rw [← hpk] at hne
    unfold flush processgrp preMerge
    simp only [h2, hl, if_true, addDefaults, List.foldl_nil]
    rw [formPath_static _ _ hst, hppn]
    simp only [ok_bind, h4]
    rw [reconstruct_lists ti _ _ _ hnn hli _ hokat hne]
    simp only [ok_bind, pure_ok, runFns, postPath]
    rw [formPath_static _ _ hst, hppn]
    simp only [ok_bind]
    rw [save_amend ti _ (fun kv hkv => (h7.2 kv hkv).1) _ _ hnn hli _ hokat hne, hpk]
    simp only [ok_bind, treeOf, List.foldr_cons, addRec, hl, if_true]

/-- the record in work is saved, whatever it is -/
theorem flush_sim (ti : Bool) (gf : GroupFns) (groups : List (List Str)) (id : List Str → GId) (dflt : List Str → Dict Key Val)
    (hok : GroupsOK ti groups id dflt) (ms : MS) (D : Desk) (h : Sim ti groups id dflt ms D) (st en : List GId) :
    flush ti gf { ms with started := st, ended := en } =
      .ok { ms with started := st, ended := en, results := .dict (treeOf ti dflt D.recs) } ∧
    ∀ g ∈ groups, OkAt (g.map (pathKey ti)) (treeOf ti dflt D.recs) := by
  rcases h.cur with ⟨h1, h2, h3, h4⟩ | ⟨r, rs, hr⟩
  · constructor
    · have := flush_empty ti gf { ms with started := st, ended := en } h2
      rw [this, h1]
      simp only [treeOf, List.foldr_nil, h4]
    · intro g _
      rw [h1]
      exact okAt_nil _
  · constructor
    · rw [flush_rec ti gf groups id dflt hok ms D r rs hr st en, hr.recs]
    · rw [hr.recs]
      exact addRec_tree ti groups id dflt hok r hr.group hr.data _ hr.tree

/-! ### steps -/

theorem filter_ended (groups : List (List Str)) (id : List Str → GId) (hid : ∀ g ∈ groups, ∀ g' ∈ groups, id g = id g' → g = g')
    (en : List GId) (off : List (List Str)) (h : ∀ g ∈ groups, id g ∈ en ↔ g ∈ off) (g : List Str) (hg : g ∈ groups) :
    ∀ x ∈ groups, id x ∈ en.filter (fun y => y != id g) ↔ x ∈ off.filter (· ≠ g) := by
  intro x hx
  simp only [List.mem_filter, bne_iff_ne, ne_eq, h x hx, decide_not, Bool.not_eq_eq_eq_not, Bool.not_true, decide_eq_false_iff_not]
  constructor
  · rintro ⟨h1, h2⟩; exact ⟨h1, fun e => h2 (by rw [e])⟩
  · rintro ⟨h1, h2⟩; exact ⟨h1, fun e => h2 (hid x hx g hg e)⟩

theorem doStart_sim (ti : Bool) (gf : GroupFns) (groups : List (List Str)) (id : List Str → GId) (dflt : List Str → Dict Key Val)
    (hok : GroupsOK ti groups id dflt) (ms : MS) (D : Desk) (h : Sim ti groups id dflt ms D) (g : List Str) (hg : g ∈ groups) (re : RE)
    (hre : LineOf id dflt g re) (en : List GId) (d : Dict Key Val) :
    doStart ti gf re d { ms with ended := en } =
      .ok { ms with
        started := (g :: (if g.dropLast ∈ D.opens then D.opens.dropWhile (· ≠ g.dropLast) else [])).map id
        ended := en
        results := .dict (treeOf ti dflt D.recs)
        record := ⟨d, g.map (· ++ c!"*"), [], dflt g, some (id g), false⟩ } := by
  unfold doStart
  have htr := trace_opens groups id dflt hok.ne hok.parents hok.ids g hg re hre D.opens h.opens
  simp only [h.started, htr]
  have := (flush_sim ti gf groups id dflt hok ms D h
    ((g :: (if g.dropLast ∈ D.opens then D.opens.dropWhile (· ≠ g.dropLast) else [])).map id) en).1
  rw [this]
  simp only [ok_bind, pure_ok, hre.path, hre.funcs, hre.runs, hre.gid]

theorem step_sim (ti : Bool) (gf : GroupFns) (groups : List (List Str)) (id : List Str → GId) (dflt : List Str → Dict Key Val)
    (hok : GroupsOK ti groups id dflt) (ms : MS) (D : Desk) (h : Sim ti groups id dflt ms D) (hit : Hit) (e : NEv)
    (ht : Tells ti groups id dflt hit e) :
    match D.step e with
    | some D' => ∃ ms', applyHit ti gf ms hit = .ok ms' ∧ Sim ti groups id dflt ms' D'
    | none => applyHit ti gf ms hit = .error .indexError := by
  obtain ⟨hg, hre, htells, hdata⟩ := ht
  have hdr : ∀ g ∈ groups, (parentEnded ms hit.1 = true ↔ g.dropLast ∈ D.off) ∨ e.group ≠ g := by
    intro g hgg
    by_cases heg : e.group = g
    · left
      subst heg
      unfold parentEnded
      rw [hre.parent]
      by_cases hd : e.group.dropLast = []
      · simp only [hd, if_true, Bool.false_eq_true, false_iff]
        exact fun hm => hok.ne (h.offs _ hm)
      · simp only [hd, if_false, List.contains_iff_mem]
        exact h.ended _ (hok.parents _ hg hd)
    · right; exact heg
  have hpar : parentEnded ms hit.1 = true ↔ e.group.dropLast ∈ D.off := (hdr _ hg).resolve_right (fun h => h rfl)
  have hself : hit.1.gid ∈ ms.ended ↔ e.group ∈ D.off := by rw [hre.gid]; exact h.ended _ hg
  cases e with
  | bad g =>
    simp only [TellsOf] at htells
    simp only [Desk.step]
    refine ⟨_, by rw [applyHit, htells]; rfl, ?_⟩
    simp only [NEv.group] at hg hre
    refine ⟨h.started, ?_, ?_, h.opens, h.chain, ?_⟩
    · intro x hx
      simp only [mem_addEnded, hre.gid, List.mem_cons, h.ended x hx]
      constructor
      · rintro (h1 | h1)
        · left; exact hok.ids x hx g hg h1
        · right; exact h1
      · rintro (h1 | h1)
        · left; rw [h1]
        · right; exact h1
    · intro x hx
      rcases List.mem_cons.1 hx with rfl | hx
      · exact hg
      · exact h.offs x hx
    · rcases h.cur with h1 | ⟨r, rs, hr⟩
      · left; exact h1
      · right; exact ⟨r, rs, hr.recs, hr.record, hr.opens, hr.results, hr.group, hr.late, hr.data, hr.tree⟩
  | start g d =>
    simp only [NEv.group, NEv.data, TellsOf] at hg hre htells hpar hself hdata
    simp only [Desk.step]
    have hsome : ∃ d', hit.2 = some d' := by
      rcases htells with h1 | h1
      · exact ⟨d, h1.2⟩
      · cases hh : hit.2 with
        | none => exact absurd hh h1.2.2
        | some x => exact ⟨x, rfl⟩
    obtain ⟨d', hd'⟩ := hsome
    by_cases hp : g.dropLast ∈ D.off
    · rw [if_pos hp]
      exact ⟨ms, by rw [applyHit, hd']; simp [hpar.2 hp, pure_ok], h⟩
    · rw [if_neg hp]
      have hpf : parentEnded ms hit.1 = false := by
        cases hb : parentEnded ms hit.1 with
        | false => rfl
        | true => exact absurd (hpar.1 hb) hp
      have hact : ∀ m : MS, doAction ti gf hit.1 d' m = doStart ti gf hit.1 d m := by
        intro m
        rcases htells with ⟨h1, h2⟩ | ⟨h1, h2, _⟩
        · rw [hd'] at h2
          simp only [Option.some.injEq] at h2
          subst h2
          simp [doAction, h1]
        · subst h2
          simp [doAction, h1]
      have hstart : hit.1.action.isStart = true := by
        rcases htells with ⟨h1, _⟩ | ⟨h1, _⟩ <;> rw [h1] <;> rfl
      -- the set of ended groups before the action
      obtain ⟨en, hen, hmem⟩ : ∃ en, applyHit ti gf ms hit = doStart ti gf hit.1 d { ms with ended := en } ∧
          ∀ x ∈ groups, id x ∈ en ↔ x ∈ D.off.filter (· ≠ g) := by
        by_cases hs : hit.1.gid ∈ ms.ended
        · refine ⟨ms.ended.filter (fun y => y != hit.1.gid), ?_, ?_⟩
          · rw [applyHit, hd']
            simp only [hpf, Bool.false_eq_true, if_false, hs, if_true, hstart, hact]
          · rw [hre.gid]
            exact filter_ended groups id hok.ids _ _ h.ended g hg
        · refine ⟨ms.ended, ?_, ?_⟩
          · rw [applyHit, hd']
            simp only [hpf, Bool.false_eq_true, if_false, hs, hact]
          · intro x hx
            rw [h.ended x hx]
            simp only [List.mem_filter, ne_eq, decide_not, Bool.not_eq_eq_eq_not, Bool.not_true, decide_eq_false_iff_not]
            constructor
            · intro h1; exact ⟨h1, fun e => hs (hself.2 (by rw [← e]; exact h1))⟩
            · exact fun h1 => h1.1
      rw [hen, doStart_sim ti gf groups id dflt hok ms D h g hg hit.1 hre en d]
      refine ⟨_, rfl, rfl, hmem, ?_, ?_, openOk_start _ h.chain g, ?_⟩
      · intro x hx; exact h.offs x (List.mem_filter.1 hx).1
      · intro x hx
        rcases List.mem_cons.1 hx with rfl | hx
        · exact hg
        · split at hx
          · exact h.opens x (mem_dropWhile _ _ _ hx)
          · cases hx
      · right
        refine ⟨⟨g, false, d⟩, D.recs, rfl, rfl, ⟨_, rfl⟩, rfl, hg, by simp, hdata, ?_⟩
        exact (flush_sim ti gf groups id dflt hok ms D h [] []).2
  | line g d =>
    simp only [NEv.group, NEv.data, TellsOf] at hg hre htells hpar hself hdata
    obtain ⟨hact, hd'⟩ := htells
    simp only [Desk.step]
    by_cases hp : g.dropLast ∈ D.off ∨ g ∈ D.off
    · rw [if_pos hp]
      refine ⟨ms, ?_, h⟩
      rw [applyHit, hd']
      simp only
      by_cases hpe : parentEnded ms hit.1 = true
      · rw [if_pos hpe]; rfl
      · rw [if_neg hpe]
        have : hit.1.gid ∈ ms.ended := hself.2 (hp.resolve_left (fun h => hpe (hpar.2 h)))
        rw [if_pos this, hact]
        rfl
    · rw [if_neg hp]
      have hpe : ¬ parentEnded ms hit.1 = true := fun hb => hp (Or.inl (hpar.1 hb))
      have hse : ¬ hit.1.gid ∈ ms.ended := fun hb => hp (Or.inr (hself.1 hb))
      have happ : applyHit ti gf ms hit = doAdd ti gf hit.1 d ms := by
        rw [applyHit, hd']
        simp only [hpe, hse, if_false, doAction, hact, Bool.false_eq_true]
      have hgne : g ≠ [] := fun e => hok.ne (by rw [← e]; exact hg)
      rcases h.cur with ⟨h1, h2, h3, h4⟩ | ⟨r, rs, hr⟩
      · simp only [h1]
        refine ⟨ms, ?_, h⟩
        rw [happ]
        unfold doAdd lateStart
        have : ¬ ms.record.path = hit.1.path := by
          rw [h2, hre.path]
          simp [Record.empty]
          exact hgne
        rw [if_neg this, h.started, h3]
        simp [pure_ok]
      · simp only [hr.recs]
        by_cases hgr : r.group = g
        · rw [if_pos hgr]
          refine ⟨_, by rw [happ, doAdd, if_pos (by rw [hr.record, hre.path, hgr])]; rfl, ?_⟩
          refine ⟨h.started, h.ended, h.offs, h.opens, h.chain, Or.inr ⟨_, rs, rfl, ?_, hr.opens, hr.results, hr.group, hr.late, ?_, hr.tree⟩⟩
          · simp only [hr.record]
          · exact plain_update hdata hr.data
        · rw [if_neg hgr]
          have hpth : ¬ ms.record.path = hit.1.path := by
            rw [hr.record, hre.path]
            exact fun e => hgr (starred_inj _ _ e)
          have hmem : hit.1.gid ∈ ms.started ↔ g ∈ D.opens := by
            rw [h.started, hre.gid, List.mem_map]
            constructor
            · rintro ⟨x, hx, e⟩
              rw [← hok.ids x (h.opens x hx) g hg e]; exact hx
            · intro hx; exact ⟨g, hx, rfl⟩
          by_cases hop : g ∈ D.opens
          · rw [if_pos hop]
            have hds := doStart_sim ti gf groups id dflt hok ms D h g hg hit.1 hre ms.ended d
            refine ⟨{ ms with
              started := (g :: (if g.dropLast ∈ D.opens then D.opens.dropWhile (· ≠ g.dropLast) else [])).map id
              results := .dict (treeOf ti dflt D.recs)
              record := ⟨d, g.map (· ++ c!"*"), [], [], some (id g), true⟩ }, ?_, ?_⟩
            · rw [happ, doAdd, if_neg hpth, lateStart, if_pos (hmem.2 hop)]
              have e : ({ ms with ended := ms.ended } : MS) = ms := rfl
              rw [e] at hds
              rw [hds]
              rfl
            · have hne : [] ∉ D.opens := fun hm => hok.ne (h.opens _ hm)
              have hre' := reopen D.opens h.chain hne g hop
              refine ⟨?_, h.ended, h.offs, ?_, ?_, Or.inr ⟨⟨g, true, d⟩, r :: rs, rfl, ?_, ⟨_, hre'⟩, ?_, hg, ?_, hdata, ?_⟩⟩
              · simp only [hre']
              · intro x hx; exact h.opens x (mem_dropWhile _ _ _ hx)
              · exact openOk_dropWhile _ _ h.chain
              · simp
              · simp only [hr.recs]
              · intro _
                obtain ⟨l, hl⟩ := hr.opens
                have hchain := h.chain
                rw [hl] at hchain hop
                obtain ⟨us, hus⟩ := openOk_prefix r.group l hchain g hop
                have hune : us ≠ [] := by
                  intro e
                  rw [e, List.append_nil] at hus
                  exact hgr hus.symm
                show listAt (g.map (pathKey ti)) (addRec ti dflt r (treeOf ti dflt rs)) ≠ []
                unfold addRec
                rw [← hus, List.map_append]
                exact listAt_inLast _ _ (by simpa using hgne) (by simpa using hune) _ _
              · have := (flush_sim ti gf groups id dflt hok ms D h [] []).2
                rw [hr.recs] at this
                exact this
          · rw [if_neg hop]
            refine ⟨ms, ?_, h⟩
            rw [happ, doAdd, if_neg hpth, lateStart, if_neg (fun hm => hop (hmem.1 hm))]
            rfl
  | stop g =>
    simp only [NEv.group, TellsOf] at hg hre htells hpar hself
    obtain ⟨hact, hd⟩ := htells
    obtain ⟨d', hd'⟩ : ∃ d', hit.2 = some d' := by
      cases hh : hit.2 with
      | none => exact absurd hh hd
      | some x => exact ⟨x, rfl⟩
    simp only [Desk.step]
    by_cases hp : g.dropLast ∈ D.off ∨ g ∈ D.off
    · rw [if_pos hp]
      refine ⟨ms, ?_, h⟩
      rw [applyHit, hd']
      simp only
      by_cases hpe : parentEnded ms hit.1 = true
      · rw [if_pos hpe]; rfl
      · rw [if_neg hpe]
        have : hit.1.gid ∈ ms.ended := hself.2 (hp.resolve_left (fun h => hpe (hpar.2 h)))
        rw [if_pos this, hact]
        rfl
    · rw [if_neg hp]
      have hpe : ¬ parentEnded ms hit.1 = true := fun hb => hp (Or.inl (hpar.1 hb))
      have hse : ¬ hit.1.gid ∈ ms.ended := fun hb => hp (Or.inr (hself.1 hb))
      have happ : applyHit ti gf ms hit = doEnd hit.1 ms := by
        rw [applyHit, hd']
        simp only [hpe, hse, if_false, doAction, hact, Bool.false_eq_true]
      have hgne : g ≠ [] := fun e => hok.ne (by rw [← e]; exact hg)
      rcases h.cur with ⟨h1, h2, h3, h4⟩ | ⟨r, rs, hr⟩
      · simp only [h1, List.isEmpty_nil, if_true]
        rw [happ, doEnd]
        have : ms.record.path ≠ hit.1.path := by
          rw [h2, hre.path]
          simp [Record.empty]
          exact hgne
        rw [if_pos this, h.started, h3]
        rfl
      · simp only [hr.recs, List.isEmpty_cons, Bool.false_eq_true, if_false]
        have hend : doEnd hit.1 ms = .ok { ms with ended := addEnded ms.ended hit.1.gid } := by
          unfold doEnd
          by_cases hpth : ms.record.path = hit.1.path
          · rw [if_neg (fun h => h hpth)]; rfl
          · rw [if_pos hpth]
            obtain ⟨l, hl⟩ := hr.opens
            rw [h.started, hl, List.map_cons]
            simp only
            rw [if_neg]
            · rfl
            · rw [hre.gid]
              intro e
              apply hpth
              rw [hr.record, hre.path, hok.ids g hg r.group hr.group e]
        refine ⟨_, by rw [happ, hend], ?_⟩
        refine ⟨h.started, ?_, ?_, h.opens, h.chain, Or.inr ⟨r, rs, rfl, hr.record, hr.opens, hr.results, hr.group, hr.late, hr.data, hr.tree⟩⟩
        · intro x hx
          simp only [mem_addEnded, hre.gid, List.mem_cons, h.ended x hx]
          constructor
          · rintro (h1 | h1)
            · left; exact hok.ids x hx g hg h1
            · right; exact h1
          · rintro (h1 | h1)
            · left; rw [h1]
            · right; exact h1
        · intro x hx
          rcases List.mem_cons.1 hx with rfl | hx
          · exact hg
          · exact h.offs x hx

theorem steps_sim (ti : Bool) (gf : GroupFns) (groups : List (List Str)) (id : List Str → GId) (dflt : List Str → Dict Key Val)
    (hok : GroupsOK ti groups id dflt) (hits : List Hit) (evs : List NEv) (ht : All2 (Tells ti groups id dflt) hits evs) (ms : MS) (D : Desk)
    (h : Sim ti groups id dflt ms D) :
    match D.run evs with
    | some D' => ∃ ms', steps ti gf ms (hits.map ([·])) = .ok ms' ∧ Sim ti groups id dflt ms' D'
    | none => steps ti gf ms (hits.map ([·])) = .error .indexError := by
  induction ht generalizing ms D with
  | nil => exact ⟨ms, rfl, h⟩
  | @cons hit e hits evs h1 _ ih =>
    have hs := step_sim ti gf groups id dflt hok ms D h hit e h1
    simp only [Desk.run, List.map_cons, steps, step_single]
    cases hd : D.step e with
    | none =>
      rw [hd] at hs
      simp only at hs
      simp only [Option.bind_none, hs]
      rfl
    | some D' =>
      rw [hd] at hs
      obtain ⟨ms', e1, e2⟩ := hs
      simp only [Option.bind_some, e1, ok_bind]
      exact ih ms' D' e2

end TTP
