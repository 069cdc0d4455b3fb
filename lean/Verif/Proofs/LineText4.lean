import Verif.Proofs.LineText3
/-!
# The text of a line and its syntax tree
-/

namespace TTP
open Py Py.Re Py.ReText

/-- The pattern of `ignore` in both forms. -/
def IgnRel : IgnArg → Option Re → Prop
  | .none, o => o = none
  | .one p, o => ∃ r, o = some r ∧ parseAll p = some r
  | .many, _ => False

/-- the same expressions, one by one: they match the same and have the same names -/
def SameAll : List Re → List Re → Prop
  | [], [] => True
  | a :: as, b :: bs => (run a = run b ∧ names a = names b) ∧ SameAll as bs
  | _, _ => False

theorem SameAll.refl (rs : List Re) : SameAll rs rs := by
  induction rs with
  | nil => trivial
  | cons r rs ih => exact ⟨⟨rfl, rfl⟩, ih⟩

theorem altAll_congr (as bs : List Re) (h : SameAll as bs) : run (altAll as) = run (altAll bs) ∧ names (altAll as) = names (altAll bs) := by
  induction as generalizing bs with
  | nil => cases bs with
    | nil => exact ⟨rfl, rfl⟩
    | cons b bs => cases h
  | cons a as ih =>
    cases bs with
    | nil => cases h
    | cons b bs =>
      obtain ⟨h1, h2⟩ := h
      cases as with
      | nil => cases bs with
        | nil => exact h1
        | cons c cs => cases h2
      | cons c cs => cases bs with
        | nil => cases h2
        | cons d ds =>
          have := ih (d :: ds) h2
          refine ⟨run_alt_congr h1.1 this.1, ?_⟩
          show names a ++ names (altAll (c :: cs)) = names b ++ names (altAll (d :: ds))
          rw [h1.2, this.2]

/-- A variable as `form_regex` finds it and the same variable with its patterns compiled one by one. -/
structure VarRel (v : TextVar) (i : VarInfo) : Prop where
  name : i.name = v.name
  ignore : i.ignore = (v.name == c!"ignore")
  cut : i.cut = (v.name == c!"_start_" || v.name == c!"_end_" || v.set)
  pats : ∃ rs, ReadsAll v.res rs ∧ SameAll rs i.pats
  ign : v.name = c!"ignore" → IgnRel v.ign i.ignArg

/-- the second halves of the pairs -/
abbrev fsts (ps : List (Elem (TextVar × VarInfo))) : List (Elem TextVar) := ps.map (Elem.map Prod.fst)
/-- the second halves of the pairs -/
abbrev snds (ps : List (Elem (TextVar × VarInfo))) : List (Elem VarInfo) := ps.map (Elem.map Prod.snd)

theorem elemVars_map {α β : Type} (f : α → β) (ps : List (Elem α)) : elemVars (ps.map (Elem.map f)) = (elemVars ps).map f := by
  induction ps with
  | nil => rfl
  | cons e ps ih => cases e <;> simp [elemVars, Elem.map, ih]

/-- a variable that is read: its name is a name of a group, or it is `ignore` -/
theorem var_chunk (v : TextVar) (i : VarInfo) (h : VarRel v i) (hn : nameOk v.name = true) :
    ∃ r, Chunk (varText v) [r] ∧ run r = run (varRe i) ∧ names r = names (varRe i) := by
  unfold varText varRe
  by_cases hi : v.name = c!"ignore"
  · have hig : i.ignore = true := by rw [h.ignore]; simpa using hi
    rw [if_pos hi, if_pos hig]
    have hr := h.ign hi
    cases he : v.ign with
    | none =>
      rw [he] at hr
      rw [show i.ignArg = none from hr]
      exact ⟨reWORD, Chunk.word, rfl, rfl⟩
    | one p =>
      rw [he] at hr
      obtain ⟨r, e, hp⟩ := hr
      rw [e]
      exact ⟨r, Chunk.group p r hp, rfl, rfl⟩
    | many => rw [he] at hr; cases hr
  · have hig : ¬ i.ignore = true := by rw [h.ignore]; simpa using hi
    rw [if_neg hi, if_neg hig]
    unfold groupText
    rw [h.name]
    obtain ⟨rs, hp, hs⟩ := h.pats
    cases hv : v.res with
    | nil =>
      rw [hv] at hp
      have hrs : rs = [] := by cases hx : rs with
        | nil => rfl
        | cons a b => rw [hx] at hp; cases hp
      have hpi : i.pats = [] := by cases hx : i.pats with
        | nil => rfl
        | cons a b => rw [hx, hrs] at hs; cases hs
      rw [if_pos rfl, hpi]
      have hw : parseAll c!"\\S+" = some (.seq reWORD .eps) := by decide
      refine ⟨_, Chunk.named v.name [c!"\\S+"] [.seq reWORD .eps] hn (by simp) ⟨hw, trivial⟩, ?_, rfl⟩
      exact run_cap_congr _ ((run_seq_eps _).trans (run_seq_eps _))
    | cons p ps =>
      rw [hv] at hp
      rw [if_neg (by simp)]
      have hne : rs ≠ [] := by intro e; rw [e] at hp; cases hp
      have := run_altTree rs hne
      have h2 := altAll_congr rs i.pats hs
      exact ⟨_, Chunk.named v.name (p :: ps) rs hn (by simp) hp, run_cap_congr _ (this.1.trans h2.1), by
        simp only [names]; rw [this.2, h2.2]⟩

theorem blanks_run : run (Re.plus true (.cls (.set false [.ch ' ', .ch '\t']))) = run blanksRe := by
  refine run_plus_congr true (run_cls_congr (fun x => ?_))
  simp only [CC.test, List.any_cons, List.any_nil, Bool.or_false, CItem.test, List.contains_cons, List.contains_nil]
  rw [BEq.comm (a := ' '), BEq.comm (a := '\t')]
  cases (x == ' ') <;> cases (x == '\t') <;> rfl

theorem elems_chunk (exact exactSp : Bool) (ps : List (Elem (TextVar × VarInfo)))
    (h : ∀ p ∈ elemVars ps, VarRel p.1 p.2 ∧ nameOk p.1.name = true) (k : Kind) :
    ∃ rs, Chunk (elemsText exact exactSp k (fsts ps)) rs ∧ run (chain rs .eps) = run (elemsRe exact exactSp k (snds ps)) ∧
      rs.flatMap names = names (elemsRe exact exactSp k (snds ps)) := by
  induction ps generalizing k with
  | nil => exact ⟨[], Chunk.nil, by cases k <;> rfl, by cases k <;> rfl⟩
  | cons e ps ih =>
    cases e with
    | ch c =>
      have ih' := ih h
      show ∃ rs, Chunk ((pieceText exact exactSp k (.ch c)).1 ++ elemsText exact exactSp (pieceText exact exactSp k (.ch c)).2 (fsts ps)) rs ∧
        run (chain rs .eps) = run (elemsRe exact exactSp k (.ch c :: snds ps)) ∧
        rs.flatMap names = names (elemsRe exact exactSp k (.ch c :: snds ps))
      rw [elemsRe.eq_def]
      dsimp only
      by_cases h1 : (!exactSp && isBlank c) = true
      · simp only [pieceText, h1, if_true]
        obtain ⟨rs, i1, i2, i3⟩ := ih' .blank
        by_cases h3 : k = .blank
        · simp only [h3, if_true, List.nil_append]
          exact ⟨rs, i1, i2, i3⟩
        · simp only [h3, if_false]
          exact ⟨_ :: rs, Chunk.blanks.append i1, run_seq_congr blanks_run i2, by
            rw [List.flatMap_cons, i3]; rfl⟩
      · by_cases h2 : (!exact && isDigit c) = true
        · simp only [pieceText, h1, h2, if_true, Bool.false_eq_true, if_false]
          obtain ⟨rs, i1, i2, i3⟩ := ih' .digit
          by_cases h3 : k = .digit
          · simp only [h3, if_true, List.nil_append]
            exact ⟨rs, i1, i2, i3⟩
          · simp only [h3, if_false]
            exact ⟨_ :: rs, Chunk.digits.append i1, run_seq_congr rfl i2, by
              rw [List.flatMap_cons, i3]; rfl⟩
        · simp only [pieceText, h1, h2, Bool.false_eq_true, if_false]
          obtain ⟨rs, i1, i2, i3⟩ := ih' .other
          exact ⟨_ :: rs, (Chunk.escapeChar c).append i1, run_seq_congr rfl i2, by
              rw [List.flatMap_cons, i3]; rfl⟩
    | var p =>
      obtain ⟨hr, hn⟩ := h p (by simp [elemVars])
      obtain ⟨r, c1, c2, c3⟩ := var_chunk p.1 p.2 hr hn
      obtain ⟨rs, i1, i2, i3⟩ := ih (fun q hq => h q (by simp [elemVars, hq])) .other
      show ∃ rs, Chunk (varText p.1 ++ elemsText exact exactSp .other (fsts ps)) rs ∧
        run (chain rs .eps) = run (elemsRe exact exactSp k (.var p.2 :: snds ps)) ∧
        rs.flatMap names = names (elemsRe exact exactSp k (.var p.2 :: snds ps))
      rw [elemsRe.eq_def]
      dsimp only
      exact ⟨r :: rs, c1.append i1, run_seq_congr c2 i2, by rw [List.flatMap_cons, i3, c3]; rfl⟩

/-! ## The whole line -/

theorem lits_chain (t : Str) : chain (t.map (fun c => Re.cls (.lit c))) .eps = Re.lits t := by
  induction t with
  | nil => rfl
  | cons c t ih => show Re.seq _ (chain _ _) = _; rw [ih]; rfl

theorem tail_run : run (chain tailItems .eps) = run tailRe := by
  unfold tailItems tailRe chain
  simp only [List.foldr_cons, List.foldr_nil]
  refine run_seq_congr (run_star_congr _ (run_cls_congr (fun x => ?_))) (run_seq_eps _)
  simp only [CC.test, List.any_cons, List.any_nil, Bool.or_false, CItem.test, List.contains_cons, List.contains_nil]
  rw [BEq.comm (a := ' '), BEq.comm (a := '\t')]
  cases (x == ' ') <;> cases (x == '\t') <;> rfl

/-- The text made of the newline, the indent, the pieces and the end of the line. -/
theorem parse_text (exact exactSp : Bool) (indent : Str) (hi : ∀ c ∈ indent, isSpace c = true) (ps : List (Elem (TextVar × VarInfo)))
    (h : ∀ p ∈ elemVars ps, VarRel p.1 p.2 ∧ nameOk p.1.name = true) :
    ∃ T, parseAll (c!"\\n" ++ indent ++ elemsText exact exactSp .other (fsts ps) ++ tailText) = some T ∧
      run T = run (.seq (.cls (.lit '\n')) (.seq (Re.lits indent) (.seq (elemsRe exact exactSp .other (snds ps)) tailRe))) ∧
      names T = names (elemsRe exact exactSp .other (snds ps)) := by
  obtain ⟨rs, h1, h2, h3⟩ := elems_chunk exact exactSp ps h .other
  have hc := (Chunk.newline.append (Chunk.spaces indent hi)).append h1 |>.append Chunk.tail
  obtain ⟨n, hn⟩ := hc.reads [] .eps [] rfl (seq_end [] rfl)
  refine ⟨chain ([.cls (.lit '\n')] ++ indent.map (fun c => .cls (.lit c)) ++ rs ++ tailItems) .eps, (parseAll_iff _ _).2 ⟨n + 1, ?_⟩, ?_, ?_⟩
  · rw [parse, ← List.append_nil (c!"\\n" ++ indent ++ elemsText exact exactSp .other (fsts ps) ++ tailText), hn]
    rfl
  · have ap : ∀ (a b : List Re) (t : Re), chain (a ++ b) t = chain a (chain b t) := fun a b t => List.foldr_append
    rw [ap, ap, ap]
    show run (.seq _ (chain (indent.map _) _)) = _
    refine run_seq_congr rfl ?_
    rw [run_chain (indent.map _), lits_chain]
    refine run_seq_congr rfl ?_
    rw [run_chain rs]
    exact run_seq_congr h2 tail_run
  · rw [names_chain]
    simp only [List.flatMap_append, h3]
    have e1 : ∀ t : Str, (t.map (fun c => Re.cls (.lit c))).flatMap names = [] := by
      intro t; induction t with
      | nil => rfl
      | cons c t ih => simp [names]
    rw [e1]
    simp [names, tailItems]

/-- `cutElems` for both forms at once -/
theorem cut_split (exactSp : Bool) (ps : List (Elem (TextVar × VarInfo))) (hr : ∀ p ∈ elemVars ps, VarRel p.1 p.2) (hany : (fsts ps).any cutsT = true) :
    ∃ qs b rest, ps = qs ++ b ++ rest ∧ untilCut (fsts ps) = fsts qs ++ fsts b ∧ cutElems exactSp (snds ps) = snds qs ∧
      (∀ e ∈ fsts b, e.isBlank = true) ∧ (exactSp = true → b = []) ∧
      (exactSp = false → ∀ l e, fsts qs = l ++ [e] → e.isBlank = false) := by
  have hcut : ∀ e ∈ ps, cutsT (Elem.map Prod.fst e) = Elem.isCut (Elem.map Prod.snd e) := by
    intro e he
    cases e with
    | ch c => rfl
    | var p =>
      have hm : p ∈ elemVars ps := by
        clear hany hr
        induction ps with
        | nil => cases he
        | cons x ps ih =>
          cases he with
          | head => simp [elemVars]
          | tail _ he => cases x <;> simp [elemVars, ih he]
      have := hr p hm
      show p.1.cuts = (p.2.cut && !p.2.ignore)
      rw [this.cut, this.ignore]; rfl
  have hany2 : (snds ps).any Elem.isCut = true := by
    rw [List.any_eq_true] at hany ⊢
    obtain ⟨x, hx, hxc⟩ := hany
    obtain ⟨e, he, rfl⟩ := List.mem_map.1 hx
    exact ⟨_, List.mem_map.2 ⟨e, he, rfl⟩, by rw [← hcut e he]; exact hxc⟩
  let f : Elem (TextVar × VarInfo) → Bool := fun e => !cutsT (Elem.map Prod.fst e)
  have t1 : untilCut (fsts ps) = fsts (ps.takeWhile f) := by
    unfold untilCut fsts
    rw [List.takeWhile_map]; rfl
  have t2 : (snds ps).takeWhile (fun e => !e.isCut) = snds (ps.takeWhile f) := by
    unfold snds
    rw [List.takeWhile_map]
    congr 1
    have : ∀ l : List (Elem (TextVar × VarInfo)), (∀ e ∈ l, cutsT (Elem.map Prod.fst e) = Elem.isCut (Elem.map Prod.snd e)) →
        l.takeWhile ((fun e => !e.isCut) ∘ Elem.map Prod.snd) = l.takeWhile f := by
      intro l hl
      induction l with
      | nil => rfl
      | cons e l ih =>
        have := hl e (by simp)
        simp only [List.takeWhile_cons, Function.comp, f, this, ih (fun e he => hl e (by simp [he]))]
    exact this ps hcut
  have hsplit : ps = ps.takeWhile f ++ ps.dropWhile f := (List.takeWhile_append_dropWhile).symm
  cases exactSp with
  | true =>
    refine ⟨ps.takeWhile f, [], ps.dropWhile f, by simpa using hsplit, by simpa using t1, ?_, by simp, by simp, by simp⟩
    unfold cutElems
    rw [if_pos hany2, if_pos rfl, t2]
  | false =>
    let u := ps.takeWhile f
    have hu : u = (u.reverse.dropWhile Elem.isBlank).reverse ++ (u.reverse.takeWhile Elem.isBlank).reverse := by
      rw [← List.reverse_append, List.takeWhile_append_dropWhile, List.reverse_reverse]
    have bl : ∀ (g : (TextVar × VarInfo) → TextVar) (e : Elem (TextVar × VarInfo)), Elem.isBlank (Elem.map g e) = Elem.isBlank e := by
      intro g e; cases e <;> rfl
    have bl2 : ∀ (e : Elem (TextVar × VarInfo)), Elem.isBlank (Elem.map Prod.snd e) = Elem.isBlank e := by
      intro e; cases e <;> rfl
    refine ⟨(u.reverse.dropWhile Elem.isBlank).reverse, (u.reverse.takeWhile Elem.isBlank).reverse, ps.dropWhile f, ?_, ?_, ?_, ?_, by simp, ?_⟩
    · rw [← hu]; exact hsplit
    · rw [t1, ← List.map_append, ← hu]
    · unfold cutElems
      rw [if_pos hany2, if_neg (by simp), t2]
      unfold snds
      rw [← List.map_reverse, List.dropWhile_map, ← List.map_reverse]
      congr 3
      funext e
      exact bl2 e
    · intro e he
      simp only [fsts, List.map_reverse, List.mem_reverse, List.mem_map] at he
      obtain ⟨x, hx, rfl⟩ := he
      rw [bl]
      exact List.all_eq_true.1 (List.all_takeWhile (p := Elem.isBlank) (l := u.reverse)) x hx
    · intro _ l e he
      have he' : fsts (u.reverse.dropWhile Elem.isBlank) = e :: l.reverse := by
        have := congrArg List.reverse he
        simpa [fsts] using this
      cases hd : u.reverse.dropWhile Elem.isBlank with
      | nil => rw [hd] at he'; cases he'
      | cons x xs =>
        rw [hd] at he'
        injection he' with he' _
        rw [← he', bl]
        have := List.head_dropWhile_not Elem.isBlank (l := u.reverse) (by rw [hd]; simp)
        simpa [hd] using this

/-- The whole of `form_regex`: the text is read, the result matches what the tree of `Model/Line` matches, and the names of the groups
are the same. -/
theorem formLine_parse (exact exactSp : Bool) (indent : Str) (hi : ∀ c ∈ indent, isSpace c = true) (ps : List (Elem (TextVar × VarInfo)))
    (h : ∀ p ∈ elemVars ps, VarRel p.1 p.2 ∧ p.1.ok ∧ nameOk p.1.name = true) :
    ∃ T, parseAll (formLine exact exactSp indent (fsts ps)) = some T ∧ run T = run (lineRe exact exactSp indent (snds ps)) ∧
      names T = names (lineRe exact exactSp indent (snds ps)) := by
  have hok : ∀ v ∈ elemVars (fsts ps), v.ok := by
    intro v hv
    rw [elemVars_map] at hv
    obtain ⟨p, hp, rfl⟩ := List.mem_map.1 hv
    exact (h p hp).2.1
  have hnb : nb (c!"\\n" ++ indent) = true := by
    apply nb_plain
    simp only [List.mem_append, not_or]
    refine ⟨by decide, fun hm => ?_⟩
    have := hi _ hm
    revert this; decide
  have hnames : ∀ qs, names (lineRe exact exactSp indent qs) = names (elemsRe exact exactSp .other (cutElems exactSp qs)) := by
    intro qs
    have : ∀ t : Str, names (Re.lits t) = [] := by
      intro t; induction t with
      | nil => rfl
      | cons c t ih => simpa [Re.lits, names] using ih
    simp only [lineRe, names, this, tailRe, List.nil_append, List.append_nil]
  have e0 : formLine exact exactSp indent (fsts ps) = if (fsts ps).any cutsT then
        dropBlanksText (c!"\\n" ++ indent ++ elemsText exact exactSp .other (untilCut (fsts ps))) ++ tailText
      else c!"\\n" ++ indent ++ elemsText exact exactSp .other (fsts ps) ++ tailText := by
    unfold formLine
    rw [startText_eq, List.append_assoc, fold_text exact exactSp (fsts ps) hok .other _ hnb]
  rw [e0]
  by_cases hany : (fsts ps).any cutsT = true
  · rw [if_pos hany]
    obtain ⟨qs, b, rest, hps, t1, t2, t3, t4, t5⟩ := cut_split exactSp ps (fun p hp => (h p hp).1) hany
    have hsub : ∀ p ∈ elemVars qs, p ∈ elemVars ps := by
      intro p hp
      have app : ∀ (a b : List (Elem (TextVar × VarInfo))), elemVars (a ++ b) = elemVars a ++ elemVars b := by
        intro a b
        induction a with
        | nil => rfl
        | cons e a ih => cases e <;> simp [elemVars, ih]
      rw [hps, app, app]
      simp [hp]
    have hgood : good (c!"\\n" ++ indent) := by
      cases hr : indent.reverse with
      | nil =>
        have : indent = [] := by simpa using hr
        subst this
        exact good_one c!"\\" 'n' (by decide)
      | cons c u =>
        have : indent = u.reverse ++ [c] := by
          have := congrArg List.reverse hr
          simpa using this
        rw [this, ← List.append_assoc]
        refine good_one _ _ (fun e => ?_)
        have h1 := hi c (by rw [this]; simp)
        subst e
        revert h1; decide
    have hd := drop_text exact exactSp (fsts qs) (fsts b) (fun v hv => by
        rw [elemVars_map] at hv
        obtain ⟨p, hp, rfl⟩ := List.mem_map.1 hv
        exact (h p (hsub p hp)).2.1) .other (c!"\\n" ++ indent) (Or.inl (by decide)) (fun _ => hgood) t3
      (fun hs => by rw [t4 hs]; rfl) t5
    rw [t1, hd, hnames, t2]
    obtain ⟨T, a1, a2, a3⟩ := parse_text exact exactSp indent hi qs (fun p hp => ⟨(h p (hsub p hp)).1, (h p (hsub p hp)).2.2⟩)
    exact ⟨T, a1, by rw [a2, lineRe, t2], a3⟩
  · rw [if_neg hany]
    have hne : ¬ (snds ps).any Elem.isCut = true := by
      intro hc
      apply hany
      rw [List.any_eq_true] at hc ⊢
      obtain ⟨x, hx, hxc⟩ := hc
      obtain ⟨e, he, rfl⟩ := List.mem_map.1 hx
      refine ⟨_, List.mem_map.2 ⟨e, he, rfl⟩, ?_⟩
      cases e with
      | ch c => exact hxc
      | var p =>
        have hm : p ∈ elemVars ps := by
          clear hany hx hxc h hok e0
          induction ps with
          | nil => cases he
          | cons x ps ih =>
            cases he with
            | head => simp [elemVars]
            | tail _ he => cases x <;> simp [elemVars, ih he]
        have hr := (h p hm).1
        have hxc' : (p.2.cut && !p.2.ignore) = true := hxc
        rw [hr.cut, hr.ignore] at hxc'
        exact hxc'
    have hce : cutElems exactSp (snds ps) = snds ps := by unfold cutElems; rw [if_neg hne]
    rw [hnames, hce]
    obtain ⟨T, a1, a2, a3⟩ := parse_text exact exactSp indent hi ps (fun p hp => ⟨(h p hp).1, (h p hp).2.2⟩)
    exact ⟨T, a1, by rw [a2, lineRe, hce], a3⟩

end TTP
