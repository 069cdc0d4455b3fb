import Verif.Spec.Placed
import Verif.Props.Save
import Verif.Props.Rich
/-!
# Lemmas: saving at a path when nothing else is there
-/

namespace TTP
open Py Spec

/-- the path as the machine has it -/
def stepItems (path : List PathStep) : List PItem := path.map (fun p => ⟨p.name, p.stars⟩)

/-- no null names -/
def NoNull (path : List PathStep) : Prop := ∀ p ∈ path, p.name ≠ nullName

theorem keyOf_pathKey (toInt : Bool) (n : Str) : keyOf toInt n = pathKey toInt n := by simp [keyOf, pathKey]

theorem modAt_list1 {α : Type} (toInt : Bool) (f : Val → PyM (Val × α)) (p : PItem) (ps : List PItem) (x : Val) :
    modAt toInt f (p :: ps) (.list [x]) = (modAt toInt f (p :: ps) x).map (fun r => (.list [r.1], r.2)) := by
  cases ps with
  | nil =>
    simp only [modAt, onLast, onLastL]
    cases onLast _ _ x <;> rfl
  | cons q qs =>
    simp only [modAt, onLast, onLastL]
    cases onLast _ _ x <;> rfl

theorem modAt_placed {α : Type} (toInt : Bool) (f : Val → PyM (Val × α)) (V V' : Val) (a : α) (hf : f V = .ok (V', a)) :
    ∀ (path : List PathStep), path ≠ [] → NoNull path →
      modAt toInt f (stepItems path) (placedAt toInt path V) = .ok (placedAt toInt path V', some a)
  | [], h, _ => absurd rfl h
  | [p], _, hn => by
    have h1 : p.name ≠ nullName := hn p (by simp)
    simp [stepItems, modAt, placedAt, onLast, h1, enterKey, keyOf_pathKey, Dict.has, Dict.get?, Dict.set, hf, ok_bind, pure_ok]
  | p :: q :: ps, _, hn => by
    have h1 : p.name ≠ nullName := hn p (by simp)
    have ih := modAt_placed toInt f V V' a hf (q :: ps) (by simp) (fun x hx => hn x (by simp [hx]))
    have hstep : modAt toInt f (stepItems (p :: q :: ps)) (placedAt toInt (p :: q :: ps) V) =
        enterKey (keyOf toInt p.name) (freshDict toInt (stepItems (p :: q :: ps))) (modAt toInt f (stepItems (q :: ps)))
          [(pathKey toInt p.name, if p.stars = 1 then .list [placedAt toInt (q :: ps) V] else placedAt toInt (q :: ps) V)] := by
      simp [stepItems, modAt, placedAt, onLast, h1]
    rw [hstep]
    by_cases hs : p.stars = 1
    · have : modAt toInt f (stepItems (q :: ps)) (.list [placedAt toInt (q :: ps) V]) =
          .ok (.list [placedAt toInt (q :: ps) V'], some a) := by
        have := modAt_list1 toInt f ⟨q.name, q.stars⟩ (stepItems ps) (placedAt toInt (q :: ps) V)
        rw [show (⟨q.name, q.stars⟩ : PItem) :: stepItems ps = stepItems (q :: ps) from rfl] at this
        rw [this, ih]; rfl
      simp [enterKey, keyOf_pathKey, Dict.has, Dict.get?, Dict.set, hs, this, ok_bind, pure_ok, placedAt]
    · simp [enterKey, keyOf_pathKey, Dict.has, Dict.get?, Dict.set, hs, ih, ok_bind, pure_ok, placedAt]

/-- what is at the end of a new branch -/
def freshEnd (path : List PathStep) : Val :=
  match path.getLast? with
  | some p => if p.stars = 1 then .list [] else .dict []
  | none => .dict []

theorem fresh_placed (toInt : Bool) : ∀ (path : List PathStep), path ≠ [] →
    Val.dict (freshDict toInt (stepItems path)) = placedAt toInt path (freshEnd path)
  | [], h => absurd rfl h
  | [p], _ => by
    by_cases hs : p.stars = 1 <;> simp [stepItems, freshDict, placedAt, freshEnd, hs, keyOf_pathKey]
  | p :: q :: ps, _ => by
    have ih := fresh_placed toInt (q :: ps) (by simp)
    have he : freshEnd (p :: q :: ps) = freshEnd (q :: ps) := by simp [freshEnd]
    have hd : ∀ qs : List PItem, freshDict toInt (⟨p.name, p.stars⟩ :: ⟨q.name, q.stars⟩ :: qs) =
        [(pathKey toInt p.name, if p.stars = 1 then .list [.dict (freshDict toInt (⟨q.name, q.stars⟩ :: qs))]
          else .dict (freshDict toInt (⟨q.name, q.stars⟩ :: qs)))] := by
      intro qs
      rw [freshDict]
      by_cases hs : p.stars = 1 <;> simp [hs, keyOf_pathKey]
    rw [show stepItems (p :: q :: ps) = ⟨p.name, p.stars⟩ :: ⟨q.name, q.stars⟩ :: stepItems ps from rfl, hd]
    rw [show (⟨q.name, q.stars⟩ : PItem) :: stepItems ps = stepItems (q :: ps) from rfl, ih, placedAt, he]

theorem modAt_fresh {α : Type} (toInt : Bool) (f : Val → PyM (Val × α)) (path : List PathStep) (hne : path ≠ []) (hn : NoNull path) :
    modAt toInt f (stepItems path) (.dict []) = modAt toInt f (stepItems path) (placedAt toInt path (freshEnd path)) := by
  rw [← fresh_placed toInt path hne]
  match path, hne with
  | [p], _ =>
    have h1 : p.name ≠ nullName := hn p (by simp)
    by_cases hs : p.stars = 1 <;>
      simp [stepItems, modAt, onLast, h1, enterKey, freshDict, hs, Dict.has, Dict.get?, Dict.update, Dict.set]
  | p :: q :: ps, _ =>
    have h1 : p.name ≠ nullName := hn p (by simp)
    have hd : ∃ x, freshDict toInt (stepItems (p :: q :: ps)) = [(keyOf toInt p.name, x)] := by
      simp only [stepItems, List.map_cons]
      rw [freshDict]
      split <;> exact ⟨_, rfl⟩
    obtain ⟨x, hx⟩ := hd
    have hm : ∀ d, modAt toInt f (stepItems (p :: q :: ps)) (.dict d) =
        enterKey (keyOf toInt p.name) (freshDict toInt (stepItems (p :: q :: ps))) (modAt toInt f (stepItems (q :: ps))) d := by
      intro d; simp [stepItems, modAt, onLast, h1]
    rw [hm, hm, hx]
    simp [enterKey, Dict.has, Dict.get?, Dict.update, Dict.set]

theorem vtl_placed (toInt : Bool) (V r : Val) : ∀ (path : List PathStep), path ≠ [] → NoNull path →
    (toInt = true → ∀ p ∈ path, isdigitS p.name = false) →
    valueToList r (stepItems path) (placedAt toInt path V) = .ok (placedAt toInt path (.list [V, r]))
  | [], h, _, _ => absurd rfl h
  | [p], _, hn, hni => by
    have h1 : p.name ≠ nullName := hn p (by simp)
    have hk : pathKey toInt p.name = .s p.name := by
      unfold pathKey
      rw [if_neg]
      rintro ⟨h, h'⟩
      rw [hni h p (by simp)] at h'
      cases h'
    simp [stepItems, valueToList, h1, placedAt, vtlName, Dict.get?, Dict.set, hk, ok_bind, pure_ok]
  | p :: q :: ps, _, hn, hni => by
    have h1 : p.name ≠ nullName := hn p (by simp)
    have hk : pathKey toInt p.name = .s p.name := by
      unfold pathKey
      rw [if_neg]
      rintro ⟨h, h'⟩
      rw [hni h p (by simp)] at h'
      cases h'
    have ih := vtl_placed toInt V r (q :: ps) (by simp) (fun x hx => hn x (by simp [hx])) (fun h x hx => hni h x (by simp [hx]))
    have hl : valueToList r (stepItems (q :: ps)) (.list [placedAt toInt (q :: ps) V]) =
        .ok (.list [placedAt toInt (q :: ps) (.list [V, r])]) := by
      have hq : q.name ≠ nullName := hn q (by simp)
      have hkq : pathKey toInt q.name = .s q.name := by
        unfold pathKey
        rw [if_neg]
        rintro ⟨h, h'⟩
        rw [hni h q (by simp)] at h'
        cases h'
      obtain ⟨g, hg⟩ : ∃ g, ∀ w, valueToList r (stepItems (q :: ps)) w = vtlName q.name g w := by
        cases ps with
        | nil => exact ⟨_, fun w => by simp [stepItems, valueToList, hq]; rfl⟩
        | cons a as => exact ⟨_, fun w => by simp [stepItems, valueToList, hq]; rfl⟩
      obtain ⟨y, hy⟩ : ∃ y : Val → Val, ∀ X, placedAt toInt (q :: ps) X = .dict [(.s q.name, y X)] := by
        cases ps with
        | nil => exact ⟨fun X => X, fun X => by simp [placedAt, hkq]⟩
        | cons a as => exact ⟨_, fun X => by simp [placedAt, hkq]; rfl⟩
      rw [hg, hy, hy] at ih
      rw [hg, hy, hy]
      simp only [vtlName, Dict.get?, if_true, List.getLast?_singleton, List.dropLast_singleton, List.nil_append] at ih ⊢
      cases hgy : g (y V) with
      | error e => rw [hgy] at ih; cases ih
      | ok w =>
        rw [hgy] at ih
        simp only [ok_bind, pure_ok, Except.ok.injEq] at ih ⊢
        rw [ih]
    have hstep : ∀ w, valueToList r (stepItems (p :: q :: ps)) w = vtlName p.name (valueToList r (stepItems (q :: ps))) w := by
      intro w; simp [stepItems, valueToList, h1]
    rw [hstep]
    by_cases hs : p.stars = 1
    · simp [placedAt, vtlName, Dict.get?, Dict.set, hk, hs, hl, ok_bind, pure_ok]
    · simp [placedAt, vtlName, Dict.get?, Dict.set, hk, hs, ih, ok_bind, pure_ok]

theorem getLast_items (path : List PathStep) (last : PathStep) (h : path.getLast? = some last) :
    (stepItems path).getLast? = some ⟨last.name, last.stars⟩ := by
  simp [stepItems, List.getLast?_map, h]

theorem isDStar_items (path : List PathStep) (last : PathStep) (h : path.getLast? = some last) :
    isDStar (stepItems path) = (last.stars == 2) := by
  simp [isDStar, getLast_items path last h]

theorem popNull_items (path : List PathStep) (hn : NoNull path) (w : Val) : popNull (stepItems path) w = stepItems path := by
  cases w with
  | dict d =>
    cases path with
    | nil => rfl
    | cons p ps =>
      cases ps with
      | nil => rfl
      | cons q qs => simp [popNull, stepItems, hn p (by simp)]
  | _ => rfl

/-- one record into what is at the end of the path -/
theorem save_placed (toInt : Bool) (path : List PathStep) (hne : path ≠ []) (hn : NoNull path) (last : PathStep) (hl : path.getLast? = some last)
    (R V V' : Val) (r : Dict Key Val) (hR : R = placedAt toInt path V ∨ R = .dict [] ∧ V = freshEnd path)
    (hV : saveElem false (last.stars == 2) (.dict r) V = .ok (V', false)) :
    save toInt false (.dict r) (stepItems path) R = .ok (placedAt toInt path V') := by
  have hm : modAt toInt (saveElem false (isDStar (stepItems path)) (.dict r)) (stepItems path) R =
      .ok (placedAt toInt path V', some false) := by
    rw [isDStar_items path last hl]
    rcases hR with rfl | ⟨rfl, rfl⟩
    · exact modAt_placed toInt _ V V' false hV path hne hn
    · rw [modAt_fresh toInt _ path hne hn]
      exact modAt_placed toInt _ _ V' false hV path hne hn
  simp [save, hm, ok_bind, pure_ok]

theorem save_placed_vtl (toInt : Bool) (path : List PathStep) (hne : path ≠ []) (hn : NoNull path) (last : PathStep) (hl : path.getLast? = some last)
    (hni : toInt = true → ∀ p ∈ path, isdigitS p.name = false)
    (V : Val) (r : Dict Key Val) (hV : saveElem false (last.stars == 2) (.dict r) V = .ok (V, true)) :
    save toInt false (.dict r) (stepItems path) (placedAt toInt path V) = .ok (placedAt toInt path (.list [V, .dict r])) := by
  have hm : modAt toInt (saveElem false (isDStar (stepItems path)) (.dict r)) (stepItems path) (placedAt toInt path V) =
      .ok (placedAt toInt path V, some true) := by
    rw [isDStar_items path last hl]
    exact modAt_placed toInt _ V V true hV path hne hn
  simp only [save, hm, ok_bind, if_true, popNull_items path hn]
  exact vtl_placed toInt V (.dict r) path hne hn hni

theorem saveMany_cons (toInt : Bool) (path : List PItem) (r : Dict Key Val) (rs : List (Dict Key Val)) (R R' : Val)
    (h : save toInt false (.dict r) path R = .ok R') : saveMany toInt path (r :: rs) R = saveMany toInt path rs R' := by
  simp only [saveMany, List.foldlM_cons, h, ok_bind]

theorem truthy_of (r : Dict Key Val) (h : r ≠ []) : (Val.dict r).truthy = true := by
  cases r with
  | nil => exact absurd rfl h
  | cons => rfl

/-- a list at the end of the path gets the records -/
theorem many_list (toInt : Bool) (path : List PathStep) (hne : path ≠ []) (hn : NoNull path) (last : PathStep) (hl : path.getLast? = some last)
    (recs : List (Dict Key Val)) (hr : ∀ r ∈ recs, r ≠ []) : ∀ xs,
    saveMany toInt (stepItems path) recs (placedAt toInt path (.list xs)) = .ok (placedAt toInt path (.list (xs ++ recs.map .dict))) := by
  induction recs with
  | nil => intro xs; simp [saveMany, pure_ok]
  | cons r recs ih =>
    intro xs
    have hs := save_placed toInt path hne hn last hl _ (.list xs) (.list (xs ++ [.dict r])) r (Or.inl rfl) (by
      simp [saveElem, truthy_of r (hr r (by simp)), pure_ok])
    rw [saveMany_cons _ _ _ _ _ _ hs, ih (fun x hx => hr x (by simp [hx]))]
    simp

/-- a dictionary at the end of a path with two asterisks gets what it has not -/
theorem many_merged (toInt : Bool) (path : List PathStep) (hne : path ≠ []) (hn : NoNull path) (last : PathStep) (hl : path.getLast? = some last)
    (h2 : last.stars = 2) (recs : List (Dict Key Val)) (hw : ∀ r ∈ recs, Dict.WF r) : ∀ e, Dict.WF e → ∃ e', Dict.WF e' ∧
    (∀ k, Dict.get? e' k = (e :: recs).findSome? (fun r => Dict.get? r k)) ∧
    saveMany toInt (stepItems path) recs (placedAt toInt path (.dict e)) = .ok (placedAt toInt path (.dict e')) := by
  induction recs with
  | nil => intro e he; exact ⟨e, he, fun k => by cases h : Dict.get? e k <;> simp [h], by simp [saveMany, pure_ok]⟩
  | cons r recs ih =>
    intro e he
    have hwr := hw r (by simp)
    have hs := save_placed toInt path hne hn last hl _ (.dict e) (.dict (Dict.update e (Dict.update r e))) r (Or.inl rfl) (by
      simp [saveElem, h2, pure_ok])
    obtain ⟨e', g1, g2, g3⟩ := ih (fun x hx => hw x (by simp [hx])) (Dict.update e (Dict.update r e)) (Dict.WF_update _ _ he)
    refine ⟨e', g1, ?_, by rw [saveMany_cons _ _ _ _ _ _ hs, g3]⟩
    intro k
    rw [g2 k]
    simp only [List.findSome?_cons, Dict.get?_update _ _ (Dict.WF_update _ _ hwr), Dict.get?_update _ _ he]
    cases Dict.get? e k <;> cases Dict.get? r k <;> rfl

/-- all records of a text, when nothing is there -/
theorem many_fresh (toInt : Bool) (path : List PathStep) (hok : PathOK path) (hnum : NumbersOK toInt path) (recs : List (Dict Key Val))
    (hr : ∀ r ∈ recs, r ≠ [] ∧ Dict.WF r) (hsome : recs ≠ []) :
    ∃ last x, path.getLast? = some last ∧ Gathers last.stars recs x ∧
      saveMany toInt (stepItems path) recs (.dict []) = .ok (placedAt toInt path x) := by
  obtain ⟨hne, hp⟩ := hok
  have hn : NoNull path := fun p hp' => (hp p hp').1.2.1
  obtain ⟨last, hl⟩ : ∃ last, path.getLast? = some last := by
    cases h : path.getLast? with
    | none => exact absurd (List.getLast?_eq_none_iff.1 h) hne
    | some l => exact ⟨l, rfl⟩
  obtain ⟨r, rs, rfl⟩ := List.exists_cons_of_ne_nil hsome
  have hr0 := hr r (by simp)
  have hrs : ∀ x ∈ rs, x ≠ [] := fun x hx => (hr x (by simp [hx])).1
  have hle := (hp last (List.mem_of_getLast? hl)).2
  have hcase : last.stars = 0 ∨ last.stars = 1 ∨ last.stars = 2 := by omega
  rcases hcase with h0 | h1 | h2
  · have hend : freshEnd path = .dict [] := by simp [freshEnd, hl, h0]
    have hs := save_placed toInt path hne hn last hl (.dict []) (.dict []) (.dict r) r (Or.inr ⟨rfl, hend.symm⟩) (by
      simp [saveElem, h0, updateArg, pure_ok, ok_bind, Dict.update_nil_left r hr0.2])
    cases rs with
    | nil => exact ⟨last, .dict r, hl, by rw [h0]; exact .one r, by rw [saveMany_cons _ _ _ _ _ _ hs]; rfl⟩
    | cons r2 rs =>
      have hs2 := save_placed_vtl toInt path hne hn last hl (hnum last hl h0) (.dict r) r2 (by
        simp [saveElem, h0, hr0.1, pure_ok])
      refine ⟨last, .list ((r :: r2 :: rs).map .dict), hl, by rw [h0]; exact .several _ (by simp), ?_⟩
      rw [saveMany_cons _ _ _ _ _ _ hs, saveMany_cons _ _ _ _ _ _ hs2, many_list toInt path hne hn last hl rs (fun x hx => hrs x (by simp [hx]))]
      rfl
  · have hend : freshEnd path = .list [] := by simp [freshEnd, hl, h1]
    have hs := save_placed toInt path hne hn last hl (.dict []) (.list []) (.list [.dict r]) r (Or.inr ⟨rfl, hend.symm⟩) (by
      simp [saveElem, truthy_of r hr0.1, pure_ok])
    refine ⟨last, .list ((r :: rs).map .dict), hl, by rw [h1]; exact .list _, ?_⟩
    rw [saveMany_cons _ _ _ _ _ _ hs, many_list toInt path hne hn last hl rs hrs]
    rfl
  · have hend : freshEnd path = .dict [] := by simp [freshEnd, hl, h2]
    have hs := save_placed toInt path hne hn last hl (.dict []) (.dict []) (.dict r) r (Or.inr ⟨rfl, hend.symm⟩) (by
      simp [saveElem, h2, pure_ok, Dict.update_nil_left r hr0.2])
    obtain ⟨e, g1, g2, g3⟩ := many_merged toInt path hne hn last hl h2 rs (fun x hx => (hr x (by simp [hx])).2) r hr0.2
    exact ⟨last, .dict e, hl, by rw [h2]; exact .merged _ e g1 g2, by rw [saveMany_cons _ _ _ _ _ _ hs, g3]⟩

/-! ## The name of the group -/

theorem step_text_star (p : PathStep) (h : GroupName p.name) :
    (⟨p.text.take (p.text.length - trailingStars p.text), trailingStars p.text⟩ : PItem) = ⟨p.name, p.stars⟩ := by
  have hn := fun c hc => (h.2.2.2 c hc).2.1
  have hts : trailingStars p.text = p.stars := by
    have h1 : ∀ n : Nat, ((List.replicate n '*' ++ p.name.reverse).takeWhile (· == '*')).length = n := by
      intro n
      induction n with
      | zero =>
        simp only [List.replicate_zero, List.nil_append]
        cases hrv : p.name.reverse with
        | nil => rfl
        | cons c cs =>
          have : c ∈ p.name := by rw [← List.mem_reverse, hrv]; simp
          rw [List.takeWhile_cons_of_neg]
          · rfl
          · simp only [beq_iff_eq]; exact hn c this
      | succ n ih =>
        rw [List.replicate_succ, List.cons_append, List.takeWhile_cons_of_pos (by simp), List.length_cons, ih]
    unfold trailingStars PathStep.text
    rw [List.reverse_append, List.reverse_replicate, h1]
  rw [hts]
  simp [PathStep.text]

theorem mem_text (p : PathStep) (h : GroupName p.name) : ∀ c ∈ p.text, c ≠ '.' ∧ c ≠ '{' ∧ c ≠ '/' := by
  intro c hc
  rcases List.mem_append.1 hc with hc | hc
  · have := h.2.2.2 c hc; exact ⟨this.1, this.2.2.1, this.2.2.2⟩
  · rw [(List.mem_replicate.1 hc).2]; decide

theorem split_pathText (path : List PathStep) (hok : PathOK path) : splitC '.' (pathText path) = path.map PathStep.text := by
  apply splitC_join
  · simpa using hok.1
  · intro w hw
    obtain ⟨p, hp, rfl⟩ := List.mem_map.1 hw
    exact fun h => (mem_text p (hok.2 p hp).1 _ h).1 rfl

theorem parse_pathText (path : List PathStep) (hok : PathOK path) : parsePath (splitC '.' (pathText path)) = stepItems path := by
  rw [split_pathText path hok]
  unfold parsePath stepItems
  rw [List.map_map]
  apply List.map_congr_left
  intro p hp
  exact step_text_star p (hok.2 p hp).1

theorem mem_join_dot (ws : List Str) : ∀ c ∈ join c!"." ws, c = '.' ∨ ∃ w ∈ ws, c ∈ w := by
  induction ws with
  | nil => intro c h; cases h
  | cons a as ih =>
    intro c hc
    cases as with
    | nil => exact Or.inr ⟨a, by simp, by simpa [join] using hc⟩
    | cons b bs =>
      simp only [join, List.mem_append] at hc
      rcases hc with (hc | hc) | hc
      · exact Or.inr ⟨a, by simp, hc⟩
      · exact Or.inl (by simpa using hc)
      · rcases ih c hc with h | ⟨w, hw, h⟩
        · exact Or.inl h
        · exact Or.inr ⟨w, by simp [hw], h⟩

theorem pathText_chars (path : List PathStep) (hok : PathOK path) : '{' ∉ pathText path ∧ '/' ∉ pathText path ∧ pathText path ≠ [] := by
  have key : ∀ c ∈ pathText path, c ≠ '{' ∧ c ≠ '/' := by
    intro c hc
    rcases mem_join_dot _ c hc with rfl | ⟨w, hw, h⟩
    · decide
    · obtain ⟨p, hp, rfl⟩ := List.mem_map.1 hw
      exact (mem_text p (hok.2 p hp).1 c h).2
  refine ⟨fun h => (key _ h).1 rfl, fun h => (key _ h).2 rfl, ?_⟩
  obtain ⟨p, ps, rfl⟩ := List.exists_cons_of_ne_nil hok.1
  have hp : p.name ≠ [] := (hok.2 p (by simp)).1.1
  intro e
  cases ps with
  | nil => simp [pathText, join, PathStep.text, hp] at e
  | cons q qs => simp [pathText, join] at e

end TTP
