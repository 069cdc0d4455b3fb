import Verif.Spec.LineText
import Verif.Proofs.LineText5
/-! # When the text of a line compiles -/

namespace TTP
open Py Py.Re Py.ReText Spec

theorem run_finditer {a b : Re} (h : run a = run b) (s : Str) : finditer a s = finditer b s := by
  unfold finditer
  have : ∀ (s : Str) (p k : Nat), scan a s p k = scan b s p k := by
    intro s
    induction s with
    | nil => intro p k; cases k <;> simp [scan, h]
    | cons c s ih => intro p k; cases k <;> simp [scan, h, ih]
  exact this s 0 0

theorem usual_ok {v : TextVar} (h : Usual v) (hn : nameOk v.name = true) : v.ok ∧ LineOk v :=
  ⟨⟨fun p hp => (nb_iff p).2 (h.res p hp), (nameOk_noGt v.name hn).2, h.one, fun p hp => (nb_iff p).2 (h.ign p hp), h.set⟩,
   h.line, h.one⟩

/-- the variable with its patterns compiled -/
def infoOf (v : TextVar) : VarInfo :=
  ⟨v.name, v.name, .add, false, v.res.filterMap parseAll, [], v.name == c!"_start_" || v.name == c!"_end_" || v.set,
   v.name == c!"ignore", (match v.ign with | .one p => parseAll p | _ => none), false⟩

theorem infoOf_rel (v : TextVar) (h1 : ∀ p ∈ v.res, PlainPattern p) (h2 : ∀ p, v.ign = .one p → PlainPattern p) (h3 : v.ign ≠ .many) :
    VarRel v (infoOf v) ∧ names (varRe (infoOf v)) = if v.name = c!"ignore" then [] else [v.name] := by
  have hr : ∀ ps : List Str, (∀ p ∈ ps, PlainPattern p) → ReadsAll ps (ps.filterMap parseAll) ∧
      ∀ r ∈ ps.filterMap parseAll, names r = [] := by
    intro ps
    induction ps with
    | nil => intro _; exact ⟨trivial, by simp⟩
    | cons p ps ih =>
      intro hp
      obtain ⟨r, e, hn⟩ := hp p (by simp)
      obtain ⟨a, b⟩ := ih (fun q hq => hp q (by simp [hq]))
      rw [List.filterMap_cons, e]
      refine ⟨⟨e, a⟩, ?_⟩
      intro q hq
      rcases List.mem_cons.1 hq with rfl | hq
      · exact hn
      · exact b q hq
  obtain ⟨a, b⟩ := hr v.res h1
  refine ⟨⟨rfl, rfl, rfl, ⟨_, a, SameAll.refl _⟩, fun _ => ?_⟩, ?_⟩
  · unfold infoOf
    cases hi : v.ign with
    | none => rfl
    | one p =>
      obtain ⟨r, e, _⟩ := h2 p hi
      exact ⟨r, e, e⟩
    | many => exact absurd hi h3
  · have halt : ∀ rs : List Re, (∀ r ∈ rs, names r = []) → names (altAll rs) = [] := by
      intro rs
      induction rs with
      | nil => intro _; rfl
      | cons r rs ih =>
        intro h
        cases rs with
        | nil => exact h r (by simp)
        | cons q rs =>
          show names r ++ names (altAll (q :: rs)) = []
          rw [h r (by simp), ih (fun r hr => h r (by simp [hr]))]; rfl
    unfold varRe
    by_cases hi : v.name = c!"ignore"
    · rw [if_pos (by show (v.name == _) = true; simp [hi]), if_pos hi]
      cases hx : v.ign with
      | none => simp only [infoOf, hx]; rfl
      | one p =>
        obtain ⟨r, e, hn⟩ := h2 p hx
        simp only [infoOf, hx, e]; exact hn
      | many => exact absurd hx h3
    · rw [if_neg (by show ¬ (v.name == _) = true; simp [hi]), if_neg hi]
      show v.name :: names (altAll (v.res.filterMap parseAll)) = _
      rw [halt _ b]

theorem map_fst_dup (es : List (Elem TextVar)) : fsts (es.map (Elem.map (fun v => (v, infoOf v)))) = es := by
  induction es with
  | nil => rfl
  | cons e es ih => cases e <;> simp_all [fsts, Elem.map]

theorem map_snd_dup (es : List (Elem TextVar)) : snds (es.map (Elem.map (fun v => (v, infoOf v)))) = es.map (Elem.map infoOf) := by
  induction es with
  | nil => rfl
  | cons e es ih => cases e <;> simp_all [snds, Elem.map]

theorem elemVars_takeWhile (es : List (Elem TextVar)) :
    elemVars (es.takeWhile (fun e => !cutsT e)) = (elemVars es).takeWhile (fun v => !EndsLine v) := by
  induction es with
  | nil => rfl
  | cons e es ih =>
    cases e with
    | ch c => simpa [cutsT, elemVars] using ih
    | var v =>
      have : cutsT (.var v) = EndsLine v := rfl
      simp only [List.takeWhile_cons, this, elemVars]
      split
      · simp [elemVars, ih]
      · rfl

theorem elemVars_dropBlanks (es : List (Elem VarInfo)) : elemVars (es.reverse.dropWhile Elem.isBlank).reverse = elemVars es := by
  have h : es = (es.reverse.dropWhile Elem.isBlank).reverse ++ (es.reverse.takeWhile Elem.isBlank).reverse := by
    rw [← List.reverse_append, List.takeWhile_append_dropWhile, List.reverse_reverse]
  have hb : elemVars (es.reverse.takeWhile Elem.isBlank).reverse = [] := by
    have : ∀ e ∈ (es.reverse.takeWhile Elem.isBlank).reverse, e.isBlank = true := by
      intro e he
      exact List.all_eq_true.1 (List.all_takeWhile (p := Elem.isBlank) (l := es.reverse)) e (List.mem_reverse.1 he)
    revert this
    generalize (es.reverse.takeWhile Elem.isBlank).reverse = l
    intro hl
    induction l with
    | nil => rfl
    | cons e l ih =>
      have := hl e (by simp)
      cases e with
      | ch c => exact ih (fun e he => hl e (by simp [he]))
      | var v => cases this
  conv => rhs; rw [h, elemVars_append, hb, List.append_nil]

theorem cut_vars (exactSp : Bool) (es : List (Elem TextVar)) :
    elemVars (cutElems exactSp (es.map (Elem.map infoOf))) = ((elemVars es).takeWhile (fun v => !EndsLine v)).map infoOf := by
  have hc : ∀ e : Elem TextVar, Elem.isCut (Elem.map infoOf e) = cutsT e := by
    intro e; cases e <;> rfl
  have ht : (es.map (Elem.map infoOf)).takeWhile (fun e => !e.isCut) = (es.takeWhile (fun e => !cutsT e)).map (Elem.map infoOf) := by
    rw [List.takeWhile_map]
    congr 2
    funext e
    simp [Function.comp, hc]
  have key : elemVars ((es.map (Elem.map infoOf)).takeWhile (fun e => !e.isCut)) =
      ((elemVars es).takeWhile (fun v => !EndsLine v)).map infoOf := by
    rw [ht, elemVars_map, elemVars_takeWhile]
  unfold cutElems
  by_cases hany : (es.map (Elem.map infoOf)).any Elem.isCut = true
  · rw [if_pos hany]
    cases exactSp with
    | true => rw [if_pos rfl]; exact key
    | false => rw [if_neg (by simp), elemVars_dropBlanks]; exact key
  · rw [if_neg hany, ← key]
    congr 1
    symm
    have hall : ∀ e ∈ es.map (Elem.map infoOf), ¬ Elem.isCut e = true := fun e he h => hany (List.any_eq_true.2 ⟨e, he, h⟩)
    revert hall
    generalize es.map (Elem.map infoOf) = l
    intro hall
    induction l with
    | nil => rfl
    | cons e l ih =>
      rw [List.takeWhile_cons, if_pos (by have := hall e (by simp); simpa using this), ih (fun e he => hall e (by simp [he]))]

/-- The text of a line compiles just if it captures under different names. -/
theorem compile_iff (exact exactSp : Bool) (indent : Str) (hi : ∀ c ∈ indent, isSpace c = true) (es : List (Elem TextVar))
    (hu : ∀ v ∈ elemVars es, Usual v ∧ nameOk v.name = true ∧ (∀ p ∈ v.res, PlainPattern p) ∧ ∀ p, v.ign = .one p → PlainPattern p) :
    (∃ T, compile (formLine exact exactSp indent es) = some T) ↔ (captured (elemVars es)).Nodup := by
  have hvars : ∀ p ∈ elemVars (es.map (Elem.map (fun v => (v, infoOf v)))), p.1 ∈ elemVars es ∧ p.2 = infoOf p.1 := by
    intro p hp
    rw [elemVars_map] at hp
    obtain ⟨v, hv, rfl⟩ := List.mem_map.1 hp
    exact ⟨hv, rfl⟩
  obtain ⟨T, t1, t2, t3⟩ := formLine_parse exact exactSp indent hi (es.map (Elem.map (fun v => (v, infoOf v)))) (fun p hp => by
    obtain ⟨h1, h2⟩ := hvars p hp
    obtain ⟨u1, u2, u3, u4⟩ := hu p.1 h1
    refine ⟨?_, (usual_ok u1 u2).1, u2⟩
    rw [h2]
    exact (infoOf_rel p.1 u3 u4 u1.one).1)
  rw [map_fst_dup] at t1
  rw [map_snd_dup, names_line, cut_vars] at t3
  have hcap : names T = captured (elemVars es) := by
    rw [t3]
    unfold captured
    have : ∀ l : List TextVar, (∀ v ∈ l, v ∈ elemVars es) → (l.map infoOf).flatMap (fun v => names (varRe v)) =
        (l.filter (fun v => v.name != c!"ignore")).map (·.name) := by
      intro l
      induction l with
      | nil => intro _; rfl
      | cons v l ih =>
        intro hl
        obtain ⟨u1, u2, u3, u4⟩ := hu v (hl v (by simp))
        rw [List.map_cons, List.flatMap_cons, (infoOf_rel v u3 u4 u1.one).2, ih (fun v hv => hl v (by simp [hv]))]
        by_cases hi : v.name = c!"ignore"
        · rw [if_pos hi, List.filter_cons_of_neg (by simp [hi])]; rfl
        · rw [if_neg hi, List.filter_cons_of_pos (by simp [hi])]; rfl
    exact this _ (fun v hv => List.takeWhile_subset _ hv)
  unfold compile
  rw [t1]
  dsimp only
  rw [hcap]
  constructor
  · rintro ⟨T', h⟩
    split at h
    · assumption
    · cases h
  · intro h
    exact ⟨T, if_pos h⟩

theorem textEls_names (ctx : LoadCtx) (line : Str) (es : List (Elem Str)) :
    ∀ vs, textEls ctx line es = .ok vs → ∀ v ∈ elemVars vs, nameOk v.name = true := by
  induction es with
  | nil => intro vs h; cases h; simp [elemVars]
  | cons e es ih =>
    intro vs h
    cases e with
    | ch c =>
      rw [textEls] at h
      obtain ⟨vs', b1, b2⟩ := (bind_ok_iff _ _ _).1 h
      cases b2
      exact ih vs' b1
    | var content =>
      rw [textEls] at h
      obtain ⟨v, b1, b2⟩ := (bind_ok_iff _ _ _).1 h
      obtain ⟨vs', b3, b4⟩ := (bind_ok_iff _ _ _).1 b2
      cases b4
      intro u hu
      simp only [elemVars, List.mem_cons] at hu
      rcases hu with rfl | hu
      · have b1' := b1
        unfold textVar at b1'
        obtain ⟨as, h1, _⟩ := (bind_ok_iff _ _ _).1 b1'
        cases as with
        | nil => rename_i h2; cases h2
        | cons f attrs =>
          obtain ⟨ts, g, _, _, e⟩ := textVar_ok ctx line content u f attrs h1 b1
          rw [e]
          exact sanitize_nameOk f.name (getAttributes_named ctx content f attrs h1)
      · exact ih vs' b3 u hu

theorem indent_space (line : Str) : ∀ c ∈ (rstrip line).take ((rstrip line).length - (lstrip (rstrip line)).length), isSpace c = true := by
  intro c hc
  have hsplit : rstrip line = (rstrip line).takeWhile isSpace ++ lstrip (rstrip line) := (List.takeWhile_append_dropWhile).symm
  have : (rstrip line).take ((rstrip line).length - (lstrip (rstrip line)).length) = (rstrip line).takeWhile isSpace := by
    have hlen := congrArg List.length hsplit
    rw [List.length_append] at hlen
    have : (rstrip line).length - (lstrip (rstrip line)).length = ((rstrip line).takeWhile isSpace).length := by omega
    rw [this]
    conv => lhs; arg 2; rw [hsplit]
    exact List.take_left
  rw [this] at hc
  exact List.all_eq_true.1 (List.all_takeWhile (p := isSpace) (l := rstrip line)) c hc

end TTP
