import Verif.Proofs.Line3
/-!
# C25 - C30, C63 - C65: what a template line matches

`compileText` is a line of a template given as text (words and plain variables), `compileLine` a line with variables in
parsed form; `.re` is its regular expression and `finditer` finds the matches of it in a text.
-/

namespace Props
open Py Py.Re Spec TTP

namespace Ex

/-- ` interface Gi{{ port }} , mtu 1500 {{ state }}` -/
def items : List (Str × Tok) :=
  [([], .word c!"interface"), (c!" ", .var c!"Gi" c!"port" c!","), (c!"  ", .word c!"mtu"), (c!" ", .word c!"1500"),
   (c!" ", .var [] c!"state" [])]

theorem items_ok : ItemsOK items := by
  have w : ∀ x : Str, (x ≠ [] ∧ (x.all (fun c => !isSpace c)) = true) → Word x := by
    intro x h
    refine ⟨h.1, fun c hc => ?_⟩
    have := List.all_eq_true.1 h.2 c hc
    simpa using this
  have bl : ∀ x : Str, (x ≠ [] ∧ (x.all (fun c => decide (c = ' ')) = true)) → Blanks x := by
    intro x h
    refine ⟨h.1, fun c hc => ?_⟩
    have := List.all_eq_true.1 h.2 c hc
    exact Or.inl (by simpa using this)
  refine ⟨rfl, ⟨w _ (by decide), by decide⟩, ?_⟩
  intro i hi
  simp only [List.mem_cons, List.mem_nil_iff, or_false] at hi
  rcases hi with rfl | rfl | rfl | rfl
  · exact ⟨bl _ (by decide), by decide, by decide, by (intro c cs e; injection e with e1 _; rw [← e1]; decide), by decide,
      by decide⟩
  · exact ⟨bl _ (by decide), w _ (by decide), by decide⟩
  · exact ⟨bl _ (by decide), w _ (by decide), by decide⟩
  · exact ⟨bl _ (by decide), by decide, by decide, by (intro c cs e; injection e with e1 _; rw [← e1]; decide), by decide,
      by decide⟩

end Ex

/-! ## C25 -/

/-- C25. Take a template line of words and variables (`source items`), with any indent and trailing white space, and any
rendering `x` of it (`Renders`: variables replaced by words, blanks and numbers by others). Wherever that rendering
stands as a line of a text - with the same indent, trailing blanks and either kind of line end - the line is found,
and the value of every variable is the word it was replaced by. -/
theorem C25_rendered_line_parses_back (indent trail : Str) (items : List (Str × Tok)) (ho : ItemsOK items)
    (hi : ∀ c ∈ indent, isSpace c = true) (hin : '\n' ∉ indent) (ht : ∀ c ∈ trail, isSpace c = true)
    (hx : ¬ c!"_exact_" <:+: indent ++ source items) (hnd : (tokNames items).Nodup)
    (x : Str) (vals : List (Str × Str)) (hr : Renders items x vals) (b : Str) (hb : ∀ c ∈ b, Blank c)
    (before eol after : Str) (he : eol = c!"\n" ∨ eol = c!"\r\n") :
    ∃ m ∈ finditer (compileText (indent ++ source items ++ trail)).re
        (before ++ (c!"\n" ++ indent ++ x ++ b ++ eol ++ after)),
      m.start = before.length ∧ m.text = c!"\n" ++ indent ++ x ++ b ∧ m.caps = vals ∧
      vals.map Prod.fst = tokNames items ∧ ∀ n v, (n, v) ∈ vals → m.group n = some v := by
  have hn : c!"\n" <+: eol ++ after ∨ c!"\r\n" <+: eol ++ after := by
    rcases he with rfl | rfl
    · exact Or.inl ⟨after, rfl⟩
    · exact Or.inr ⟨after, rfl⟩
  have hall := itemsOK_all items ho
  rw [compileText_items indent trail items ho hi ht hx]
  have hm := line_match indent items ho x b (eol ++ after) vals hr hb hn
  have huniq := line_hits indent items ho x b (eol ++ after) vals hr hb hn
  have e0 : (c!"\n" ++ indent ++ x ++ b ++ eol ++ after : Str) = '\n' :: (indent ++ (x ++ (b ++ (eol ++ after)))) := by simp
  rw [e0]
  cases hrun : run (lineRe false false indent (itemEls items)) ('\n' :: (indent ++ (x ++ (b ++ (eol ++ after))))) with
  | nil => rw [hrun] at hm; cases hm
  | cons h t =>
    obtain ⟨m, m1, m2, m3, m4⟩ := finditer_nl (lineRe false false indent (itemEls items))
      (before ++ '\n' :: (indent ++ (x ++ (b ++ (eol ++ after))))) (by
        intro s h hm
        obtain ⟨y, h1, h2, _⟩ := lineRe_hit false false indent hin (itemEls items) (elemsNoNL_items items hall) s h hm
        exact ⟨y, h1, h2⟩) before.length h t (by rw [List.drop_left]; exact hrun)
    obtain ⟨u1, u2, u3⟩ := huniq h (by rw [hrun]; simp)
    have names : ∀ (ts : List (Str × Tok)) x vals, Renders ts x vals → vals.map Prod.fst = tokNames ts := by
      intro ts x vals h
      induction h with
      | nil => rfl
      | cons b b' t ts x y v w _ htt _ ih =>
        cases t with
        | word w' => obtain ⟨_, rfl⟩ := htt; simpa [tokNames] using ih
        | var p n q => obtain ⟨u, _, _, rfl⟩ := htt; simpa [tokNames] using ih
    have hnames := names _ _ _ hr
    refine ⟨m, m1, m2, by rw [m3, u1]; simp, by rw [m4, u3], hnames, ?_⟩
    intro n v hv
    unfold Match.group
    rw [m4, u3]
    exact Dict.get?_of_mem vals n v (by unfold Dict.WF Dict.keys; rw [hnames]; exact hnd) hv

/-- C25, other direction: whatever the text, everything such a line finds is a rendering of it with the values
reported. -/
theorem C25_matches_are_renderings (indent trail : Str) (items : List (Str × Tok)) (ho : ItemsOK items)
    (hi : ∀ c ∈ indent, isSpace c = true) (ht : ∀ c ∈ trail, isSpace c = true)
    (hx : ¬ c!"_exact_" <:+: indent ++ source items) (text : Str) (m : Match)
    (hm : m ∈ finditer (compileText (indent ++ source items ++ trail)).re text) :
    ∃ x b, Renders items x m.caps ∧ (∀ c ∈ b, Blank c) ∧ m.text = c!"\n" ++ indent ++ x ++ b := by
  rw [compileText_items indent trail items ho hi ht hx] at hm
  obtain ⟨_, h, t, hrun, e1, e2⟩ := finditer_sound _ _ m hm
  have hmem : h ∈ run (lineRe false false indent (itemEls items)) (text.drop m.start) := by rw [hrun]; simp
  rw [mem_lineRe, cutElems_items _ _ (itemEls_noCut items)] at hmem
  obtain ⟨h1, b, m1, _, hb, _, e3, _, e5⟩ := hmem
  rw [mem_line items ho] at m1
  exact ⟨h1.1, b, by rw [e2, e5]; exact m1.1, hb, by rw [e1, e3]; simp⟩

/-- the example line and a text that it matches -/
example : ∃ x vals, Renders Ex.items x vals ∧ x = c!"interface\t Gi0/1, mtu  9000 up" ∧
    vals = [(c!"port", c!"0/1"), (c!"state", c!"up")] := by
  have w : ∀ x : Str, (x ≠ [] ∧ (x.all (fun c => !isSpace c)) = true) → Word x := by
    intro x h
    refine ⟨h.1, fun c hc => ?_⟩
    have := List.all_eq_true.1 h.2 c hc
    simpa using this
  have bl : ∀ x : Str, (x ≠ [] ∧ (x.all (fun c => isBlank c) = true)) → Blanks x := by
    intro x h
    exact ⟨h.1, fun c hc => (isBlank_iff c).1 (List.all_eq_true.1 h.2 c hc)⟩
  refine ⟨_, _, .cons [] [] _ _ c!"interface" _ [] _ (Or.inl ⟨rfl, rfl⟩) ⟨?_, rfl⟩
    (.cons c!" " c!"\t " _ _ c!"Gi0/1," _ [(c!"port", c!"0/1")] _ (Or.inr ⟨by simp, bl _ (by decide)⟩) ⟨c!"0/1", w _ (by decide), rfl, rfl⟩
    (.cons c!"  " c!" " _ _ c!"mtu" _ [] _ (Or.inr ⟨by simp, bl _ (by decide)⟩) ⟨?_, rfl⟩
    (.cons c!" " c!"  " _ _ c!"9000" _ [] _ (Or.inr ⟨by simp, bl _ (by decide)⟩) ⟨?_, rfl⟩
    (.cons c!" " c!" " _ _ c!"up" _ [(c!"state", c!"up")] _ (Or.inr ⟨by simp, bl _ (by decide)⟩) ⟨c!"up", w _ (by decide), rfl, rfl⟩
    .nil)))), rfl, rfl⟩
  · exact (lit_plain _ _ _ _ (by (intro c hc; exact ⟨by (revert c; simp [Blank]), by (revert c; simp [Digit]; decide)⟩))).2 rfl
  · exact (lit_plain _ _ _ _ (by (intro c hc; exact ⟨by (revert c; simp [Blank]), by (revert c; simp [Digit]; decide)⟩))).2 rfl
  · exact .digitRun c!"1500" c!"9000" [] [] trivial ⟨by simp, by simp [Digit]; decide⟩ ⟨by simp, by simp [Digit]; decide⟩
      (by (intro c cs e; cases e)) .nil

example : (finditer (compileText c!" interface Gi{{ port }},  mtu 1500 {{ state }}").re
      c!"\n interface\t Gi0/1, mtu  9000 up \r\n interface Gi2, mtu 1 down\n").map (·.caps) =
    [[(c!"port", c!"0/1"), (c!"state", c!"up")], [(c!"port", c!"2"), (c!"state", c!"down")]] := by decide +kernel

/-! ## C26, C27 -/

/-- C26 and C27 for any literal piece of any line: between variables (or the ends of the line) the literal text `t` matches
exactly the texts `x` with `LitMatch`: a run of blanks stands for any run of blanks unless `_exact_space_`, a run of
digits for any run of digits unless `_exact_`, everything else for itself. -/
theorem C26_C27_literal_piece (exact exactSp : Bool) (left right : List (Elem VarInfo)) (t : Str)
    (hl : left = [] ∨ ∃ l v, left = l ++ [.var v]) (hr : right = [] ∨ ∃ v r, right = .var v :: r) (s : Str) (h : Re.Hit) :
    h ∈ run (elemsRe exact exactSp .other (left ++ (t.map .ch ++ right))) s ↔
      ∃ h1 x h2, h1 ∈ run (elemsRe exact exactSp .other left) s ∧ LitMatch (exactSp = false) (exact = false) t x ∧
        h1.2.1 = x ++ (h2.1 ++ h2.2.1) ∧ h2 ∈ run (elemsRe exact exactSp .other right) (h2.1 ++ h2.2.1) ∧
        h = (h1.1 ++ x ++ h2.1, h2.2.1, h1.2.2 ++ h2.2.2) := by
  have kl : endKind exact exactSp .other left = .other := by
    have : ∀ (l : List (Elem VarInfo)) (v : VarInfo) k, endKind exact exactSp k (l ++ [.var v]) = .other := by
      intro l v
      induction l with
      | nil => intro k; rfl
      | cons e l ih =>
        intro k
        cases e with
        | var w => exact ih _
        | ch c => simp only [List.cons_append, endKind, ih, ite_self]
    rcases hl with rfl | ⟨l, v, rfl⟩
    · rfl
    · exact this l v _
  have kr : ∀ k, elemsRe exact exactSp k right = elemsRe exact exactSp .other right := by
    intro k
    rcases hr with rfl | ⟨v, r, rfl⟩
    · cases k <;> rfl
    · cases k <;> rfl
  rw [elemsRe_append, mem_seq, kl]
  constructor
  · rintro ⟨h1, m1, h3, m3, rfl⟩
    rw [elemsRe_append, mem_seq] at m3
    obtain ⟨h4, m4, h2, m2, rfl⟩ := m3
    have m4' : h4 ∈ run (elemsRe exact exactSp .other (chs t)) h1.2.1 := m4
    rw [mem_chs] at m4'
    rw [kr] at m2
    have e2 := run_split _ _ _ m2
    refine ⟨h1, h4.1, h2, m1, m4'.1, by rw [e2, m4'.2.1], by rw [e2]; exact m2, ?_⟩
    simp [m4'.2.2]
  · rintro ⟨h1, x, h2, m1, hx, e, m2, rfl⟩
    refine ⟨h1, m1, (x ++ h2.1, h2.2.1, h2.2.2), ?_, by simp⟩
    rw [elemsRe_append, mem_seq]
    refine ⟨(x, h2.1 ++ h2.2.1, []), ?_, h2, ?_, by simp⟩
    · show _ ∈ run (elemsRe exact exactSp .other (chs t)) h1.2.1
      rw [mem_chs]
      exact ⟨hx, e.symm, rfl⟩
    · rw [kr]; exact m2

/-- the line `t {{ name }}` with the blanks `sep` before the variable -/
def litLine (t sep name : Str) : List (Elem VarDef) := t.map .ch ++ (sep.map .ch ++ [.var ⟨name, none, []⟩])

/-- C26 and C27 for a whole line `t {{ _start_ }}` (or `_end_`): in any text, the line is found at position `i` iff there is
a newline, the indent, something `t` stands for, trailing blanks, and the end of the line. -/
theorem C26_C27_literal_line (exact exactSp : Bool) (indent t sep name : Str) (hi : '\n' ∉ indent) (htn : '\n' ∉ t)
    (hname : name = c!"_start_" ∨ name = c!"_end_")
    (hsep : ∀ c ∈ sep, Blank c) (hsp : exactSp = true → sep = []) (hlast : exactSp = false → ∀ u c, t = u ++ [c] → ¬ Blank c)
    (text : Str) (i : Nat) :
    (∃ m ∈ finditer (compileLine exact exactSp indent (litLine t sep name)).re text,
        m.start = i) ↔
      ∃ x b rest, text.drop i = c!"\n" ++ indent ++ x ++ b ++ rest ∧ LitMatch (exactSp = false) (exact = false) t x ∧
        (∀ c ∈ b, Blank c) ∧ (c!"\n" <+: rest ∨ c!"\r\n" <+: rest) := by
  have hcut : cutElems exactSp ((litLine t sep name).map infoEl) = chs t := by
    have hc : Elem.isCut (infoEl (.var ⟨name, none, []⟩)) = true := by rcases hname with rfl | rfl <;> decide
    have e1 : (litLine t sep name).map infoEl =
        chs (t ++ sep) ++ [infoEl (.var ⟨name, none, []⟩)] := by
      simp [chs, litLine, Function.comp_def, infoEl]
    have hch : ∀ w : Str, (chs w ++ [infoEl (.var ⟨name, none, []⟩)]).takeWhile (fun e => !e.isCut) = chs w := by
      intro w
      induction w with
      | nil => simp [chs, hc]
      | cons c w ih =>
        simp only [chs, List.map_cons, List.cons_append] at ih ⊢
        rw [List.takeWhile_cons_of_pos (by rfl), ih]
    rw [e1]
    unfold cutElems
    rw [hch]
    have hany : (chs (t ++ sep) ++ [infoEl (.var ⟨name, none, []⟩)]).any Elem.isCut = true := by simp [hc]
    rw [if_pos hany]
    cases exactSp with
    | true => simp [hsp rfl]
    | false =>
      simp only [Bool.false_eq_true, if_false]
      have hd : ∀ (w : Str), (∀ c ∈ w, Blank c) → ∀ l : List (Elem VarInfo),
          (w.map Elem.ch ++ l).dropWhile Elem.isBlank = l.dropWhile Elem.isBlank := by
        intro w hw l
        induction w with
        | nil => rfl
        | cons c w ih =>
          simp only [List.map_cons, List.cons_append]
          rw [List.dropWhile_cons_of_pos (by simp [Elem.isBlank, (isBlank_iff c).2 (hw c (by simp))])]
          exact ih (fun c hc => hw c (by simp [hc]))
      have e2 : (chs (t ++ sep)).reverse = sep.reverse.map Elem.ch ++ t.reverse.map Elem.ch := by
        simp [chs]
      rw [e2, hd _ (by simpa using hsep)]
      cases ht : t.reverse with
      | nil => simp at ht; subst ht; simp [chs]
      | cons c u =>
        have : t = u.reverse ++ [c] := by have := congrArg List.reverse ht; simpa using this
        have hb : isBlank c = false := by
          cases h : isBlank c with
          | false => rfl
          | true => exact absurd ((isBlank_iff c).1 h) (hlast rfl _ _ this)
        simp only [List.map_cons]
        rw [List.dropWhile_cons_of_neg (by simp [Elem.isBlank, hb])]
        rw [this]; simp [chs]
  have hre := compileLine_re exact exactSp indent (litLine t sep name)
  have hmem : ∀ s h, h ∈ run (compileLine exact exactSp indent (litLine t sep name)).re s ↔
      ∃ x b, LitMatch (exactSp = false) (exact = false) t x ∧ (∀ c ∈ b, Blank c) ∧
        (c!"\n" <+: h.2.1 ∨ c!"\r\n" <+: h.2.1) ∧ h.1 = '\n' :: (indent ++ (x ++ b)) ∧ h.1 ++ h.2.1 = s ∧ h.2.2 = [] := by
    intro s h
    rw [hre, mem_lineRe, hcut]
    constructor
    · rintro ⟨h1, b, m1, e1, hb, hn, e2, e3, e4⟩
      rw [mem_chs] at m1
      exact ⟨h1.1, b, m1.1, hb, hn, e2, e3, by rw [e4, m1.2.2]⟩
    · rintro ⟨x, b, hx, hb, hn, e2, e3, e4⟩
      refine ⟨(x, b ++ h.2.1, []), b, ?_, rfl, hb, hn, e2, e3, e4⟩
      rw [mem_chs]
      exact ⟨hx, rfl, rfl⟩
  have hNL : ∀ s h, h ∈ run (compileLine exact exactSp indent (litLine t sep name)).re s →
      ∃ x, h.1 = '\n' :: x ∧ '\n' ∉ x := by
    intro s h hm
    rw [hre] at hm
    obtain ⟨y, h1, h2, _⟩ := lineRe_hit exact exactSp indent hi _ (infoEl_noNL _ (by
      intro hm
      simp only [litLine, List.mem_append, List.mem_map, Elem.ch.injEq, exists_eq_right, List.mem_singleton, reduceCtorEq, or_false] at hm
      rcases hm with hm | hm
      · exact htn hm
      · have := hsep _ hm; revert this; simp [Blank]) (by
      intro d hd r hr
      simp only [litLine, List.mem_append, List.mem_map, reduceCtorEq, and_false, exists_false, List.mem_singleton, Elem.var.injEq,
        false_or] at hd
      subst hd
      simp [userRes] at hr)) s h hm
    exact ⟨y, h1, h2⟩
  constructor
  · rintro ⟨m, hm, rfl⟩
    obtain ⟨_, h, tl, hrun, _, _⟩ := finditer_sound _ _ m hm
    obtain ⟨x, b, hx, hb, hn, e2, e3, _⟩ := (hmem _ h).1 (by rw [hrun]; simp)
    exact ⟨x, b, h.2.1, by rw [← e3, e2]; simp, hx, hb, hn⟩
  · rintro ⟨x, b, rest, e, hx, hb, hn⟩
    have hin := (hmem (text.drop i) ('\n' :: (indent ++ (x ++ b)), rest, [])).2
      ⟨x, b, hx, hb, hn, rfl, by rw [e]; simp, rfl⟩
    cases hrun : run (compileLine exact exactSp indent (litLine t sep name)).re (text.drop i) with
    | nil => rw [hrun] at hin; cases hin
    | cons h tl =>
      obtain ⟨m, m1, m2, _⟩ := finditer_nl _ text hNL i h tl hrun
      exact ⟨m, m1, m2⟩

example : (finditer (compileLine false false [] (litLine c!"vlan 10 name  x" c!" " c!"_start_")).re
    c!"\nvlan\t7 name x  \nvlan 10 nam x\nvlan10 name x\nvlan 123  name x\n").map (·.start) = [0, 44] := by decide +kernel

/-! ## C28 -/

/-- C28. A match of a template line - whatever its variables, as long as no pattern given by the user can match a newline -
begins with the newline before the line, contains no other newline, and is followed by the end of the line. -/
theorem C28_whole_lines (exact exactSp : Bool) (indent : Str) (hi : '\n' ∉ indent) (es : List (Elem VarDef))
    (hc : Elem.ch '\n' ∉ es) (hv : ∀ d, Elem.var d ∈ es → ∀ r ∈ userRes d, noNL r = true) (text : Str) (m : Match)
    (hm : m ∈ finditer (compileLine exact exactSp indent es).re text) :
    ∃ line rest, m.text = '\n' :: line ∧ '\n' ∉ line ∧ text.drop m.start = '\n' :: line ++ rest ∧
      (c!"\n" <+: rest ∨ c!"\r\n" <+: rest) := by
  rw [compileLine_re] at hm
  obtain ⟨_, h, t, hrun, e1, _⟩ := finditer_sound _ _ m hm
  have hmem : h ∈ run (lineRe exact exactSp indent (es.map infoEl)) (text.drop m.start) := by rw [hrun]; simp
  obtain ⟨x, h1, h2, h3⟩ := lineRe_hit exact exactSp indent hi _ (infoEl_noNL es hc hv) _ h hmem
  have h4 := run_split _ _ _ hmem
  exact ⟨x, h.2.1, by rw [e1, h1], h2, by rw [← h4, h1], h3⟩

/-- the built-in patterns cannot match a newline -/
example : [reWORD, reDIGIT, rePHRASE, reROW, reORPHRASE, reLINE].all noNL = true := by decide

example : (finditer (compileLine false false [] [.ch 'a', .ch ' ', .var ⟨c!"x", none, [.pattern rePHRASE]⟩]).re
    c!"\na b c\nba b c\na b\n").map (fun m => (m.start, m.text)) = [(0, c!"\na b c")] := by decide +kernel

/-! ## C29 -/

/-- C29. A variable without a pattern captures a non-empty word without white space, on every line and in every text. -/
theorem C29_default_pattern (exact exactSp : Bool) (indent : Str) (es : List (Elem VarDef)) (text : Str) (m : Match)
    (hm : m ∈ finditer (compileLine exact exactSp indent es).re text) (n v : Str) (hc : (n, v) ∈ m.caps)
    (hplain : ∀ d, Elem.var d ∈ es → sanitize d.name = n →
      n ≠ c!"_line_" ∧ ∀ a ∈ d.attrs, (∀ r, a ≠ .pattern r) ∧ ∀ r, a ≠ .line r)
    (hother : ∀ d, Elem.var d ∈ es → ∀ r ∈ userRes d, n ∉ capNames r) :
    Word v ∧ v <:+: text := by
  refine ⟨?_, finditer_caps _ _ m hm (n, v) hc⟩
  rw [compileLine_re] at hm
  obtain ⟨_, h, t, hrun, _, e2⟩ := finditer_sound _ _ m hm
  have hmem : h ∈ run (lineRe exact exactSp indent (es.map infoEl)) (text.drop m.start) := by rw [hrun]; simp
  rw [mem_lineRe] at hmem
  obtain ⟨h1, b, m1, _, _, _, _, _, e5⟩ := hmem
  obtain ⟨w, hw, hcase⟩ := elems_caps _ _ _ _ _ _ m1 (n, v) (by rw [← e5, ← e2]; exact hc)
  have hw' := cutElems_sub _ _ _ hw
  obtain ⟨x, hx, ex⟩ := List.mem_map.1 hw'
  cases x with
  | ch c => cases ex
  | var d =>
    simp only [infoEl, Elem.var.injEq] at ex
    subst ex
    obtain ⟨f1, f2, f3, f4, f5⟩ := varInfo_facts d
    rcases hcase with ⟨_, hn, s', h', hr', hv⟩ | ⟨_, hcap⟩ | ⟨_, r, hr, hcap⟩
    · rw [f1] at hn
      dsimp only at hn hv
      obtain ⟨hl, hp⟩ := hplain d hx hn
      have hpats : (varInfo d).pats = [] ∨ ∃ r, r ∈ (varInfo d).pats := by
        cases (varInfo d).pats with
        | nil => exact Or.inl rfl
        | cons a l => exact Or.inr ⟨a, by simp⟩
      have : (varInfo d).pats = [] := by
        rcases hpats with h | ⟨r, hr⟩
        · exact h
        · exfalso
          -- a pattern comes from an attribute, or from ignore(...)
          have hk := (varInfo_keep d.attrs (nameAttr ⟨d.name, sanitize d.name, .add, false, [], [], false, false, d.ignArg, false⟩)).2.2.2.2 r hr
          rcases hk with hk | hk
          · rcases (nameAttr_keep ⟨d.name, sanitize d.name, .add, false, [], [], false, false, d.ignArg, false⟩).2.2.2.1 r hk with h | ⟨_, h⟩
            · cases h
            · exact hl (hn ▸ h)
          · obtain ⟨a, ha, hr2⟩ := List.mem_filterMap.1 hk
            cases a with
            | pattern q => exact (hp _ ha).1 q rfl
            | line q => exact (hp _ ha).2 q rfl
            | _ => simp at hr2
      rw [this] at hr'
      simp only [altAll] at hr'
      rw [mem_WORD] at hr'
      rw [← hv]; exact hr'.1
    · exfalso
      obtain ⟨r, hr, hcap⟩ := altAll_capNames _ _ hcap
      rcases f5 r hr with ⟨rfl, _⟩ | hu
      · simp [reLINE, Re.plus, capNames] at hcap
      · exact hother d hx r hu hcap
    · exfalso
      rw [f3] at hr
      exact hother d hx r (by simp [userRes, hr]) hcap

example : (finditer (compileLine false false [] [.ch 'a', .ch ' ', .var ⟨c!"x", none, []⟩]).re c!"\na 1-b,\t\na b c\n").map (·.caps) =
    [[(c!"x", c!"1-b,")]] := by decide +kernel

/-! ## C30, C63 -/

/-- C30. The capture name is never empty, consists of letters, digits and underscores, and does not begin with a digit; a
name that is already like that is not changed. -/
theorem C30_capture_names (name : Str) (hn : name ≠ []) :
    (∃ c cs, sanitize name = c :: cs ∧ isDigit c = false ∧ ∀ d ∈ c :: cs, isWord d = true) ∧
    ((∀ c ∈ name, isWord c = true) → (∀ c cs, name = c :: cs → isDigit c = false) → sanitize name = name) := by
  obtain ⟨c, cs, e, h1, h2⟩ := sanitize_valid name hn
  exact ⟨⟨c, cs, e, h1, by rw [← e]; exact h2⟩, fun h1 h2 => sanitize_word name h1 h2⟩

example : sanitize c!"1st.hop - ip" = c!"_1st_hop_ip" := by decide

/-- C63, false in general: two variables with different names can get the same capture name (then the regular expression
of the line does not compile). -/
theorem C63_names_clash : ∃ a b : Str, a ≠ b ∧ a ≠ [] ∧ b ≠ [] ∧ sanitize a = sanitize b :=
  ⟨c!"mac-addr", c!"mac.addr", by decide, by decide, by decide, by decide⟩

/-- C63, the part that holds: names that are identifiers never clash. -/
theorem C63_identifiers_kept_apart_partial (a b : Str) (ha : ∀ c ∈ a, isWord c = true) (hb : ∀ c ∈ b, isWord c = true)
    (ha2 : ∀ c cs, a = c :: cs → isDigit c = false) (hb2 : ∀ c cs, b = c :: cs → isDigit c = false)
    (h : sanitize a = sanitize b) : a = b := by
  rw [sanitize_word a ha ha2, sanitize_word b hb hb2] at h
  exact h

example : sanitize c!"mac_addr" ≠ sanitize c!"mac__addr" := by decide

/-! ## C64 -/

/-- action of the last variable that is not `ignore`, `add` if there is none -/
def lastAction (vs : List VarInfo) : Action :=
  match (vs.filter (fun v => v.name != c!"ignore")).getLast? with
  | some v => v.action
  | none => .add

/-- C64. What a line does is decided by its variables other than `ignore`: the first one that starts the group, if any,
otherwise the last one. -/
theorem C64_line_action (vs : List VarInfo) :
    (∀ pre v post, vs = pre ++ v :: post → v.name ≠ c!"ignore" → v.action.isStart = true →
      (∀ u ∈ pre, u.name = c!"ignore" ∨ u.action.isStart = false) → lineAction vs = v.action) ∧
    ((∀ u ∈ vs, u.name = c!"ignore" ∨ u.action.isStart = false) → lineAction vs = lastAction vs) := by
  have step : ∀ (l : List VarInfo) (a : Action), a.isStart = false → (∀ u ∈ l, u.name = c!"ignore" ∨ u.action.isStart = false) →
      (l.foldl (fun a v => if a.isStart || v.name == c!"ignore" then a else v.action) a).isStart = false ∧
      l.foldl (fun a v => if a.isStart || v.name == c!"ignore" then a else v.action) a =
        match (l.filter (fun v => v.name != c!"ignore")).getLast? with
        | some v => v.action
        | none => a := by
    intro l
    induction l with
    | nil => intro a ha _; exact ⟨ha, rfl⟩
    | cons u l ih =>
      intro a ha hu
      simp only [List.foldl_cons, ha, Bool.false_or]
      by_cases hn : u.name = c!"ignore"
      · simp only [hn, beq_self_eq_true, if_true]
        obtain ⟨h1, h2⟩ := ih a ha (fun u hu' => hu u (by simp [hu']))
        refine ⟨h1, ?_⟩
        rw [h2, List.filter_cons_of_neg (by simp [hn])]
      · have hb : (u.name == c!"ignore") = false := by simp [hn]
        simp only [hb, Bool.false_eq_true, if_false]
        have hs : u.action.isStart = false := by
          rcases hu u (by simp) with h | h
          · exact absurd h hn
          · exact h
        obtain ⟨h1, h2⟩ := ih u.action hs (fun u hu' => hu u (by simp [hu']))
        refine ⟨h1, ?_⟩
        rw [h2, List.filter_cons_of_pos (by simp [hn]), List.getLast?_cons]
        cases (l.filter (fun v => v.name != c!"ignore")).getLast? <;> rfl
  constructor
  · rintro pre v post rfl hv hs hpre
    unfold lineAction
    rw [List.foldl_append, List.foldl_cons]
    have h1 := (step pre .add rfl hpre).1
    have hb : (v.name == c!"ignore") = false := by simp [hv]
    simp only [h1, hb, Bool.or_self, Bool.false_eq_true, if_false]
    have : ∀ l : List VarInfo, l.foldl (fun a v => if a.isStart || v.name == c!"ignore" then a else v.action) v.action = v.action := by
      intro l
      induction l with
      | nil => rfl
      | cons u l ih => simp only [List.foldl_cons, hs, Bool.true_or, if_true]; exact ih
    exact this post
  · intro h
    exact (step vs .add rfl h).2

/-- C64, what a user may not expect: a variable with `joinmatches` followed by a plain variable is not joined. -/
theorem C64_join_lost : ∃ vs : List VarInfo, (∃ v ∈ vs, v.action = .join) ∧ (∀ v ∈ vs, v.action.isStart = false) ∧ lineAction vs = .add :=
  ⟨[varInfo ⟨c!"vlans", none, [.joinmatches ⟨c!"joinmatches", [], []⟩]⟩, varInfo ⟨c!"state", none, []⟩], by decide⟩

example : lineAction [varInfo ⟨c!"ignore", none, []⟩, varInfo ⟨c!"vlans", none, [.joinmatches ⟨c!"joinmatches", [], []⟩]⟩,
    varInfo ⟨c!"ignore", none, []⟩] = .join := by decide

/-- What an attribute after the name makes of a variable: `_start_` a start, `_end_` an end, `_line_` and `joinmatches` a join;
`none`: nothing. -/
def attrAction (name : Str) : Attr → Option Action
  | .start => some (if name = c!"_start_" then .startempty else .start)
  | .end_ => some .end_
  | .line _ => some .join
  | .joinmatches _ => some .join
  | _ => none

/-- C64. What a variable does: the last attribute that says so decides; without any, `_start_` starts a record without values,
`_end_` ends the record, `_line_` joins, and every other variable is added to the record. -/
theorem C64_variable_action (d : VarDef) :
    (∀ pre a post act, d.attrs = pre ++ a :: post → attrAction (sanitize d.name) a = some act →
      (∀ b ∈ post, attrAction (sanitize d.name) b = none) → (varInfo d).action = act) ∧
    ((∀ a ∈ d.attrs, attrAction (sanitize d.name) a = none) →
      (sanitize d.name = c!"_start_" → (varInfo d).action = .startempty) ∧
      (sanitize d.name = c!"_end_" → (varInfo d).action = .end_) ∧
      (sanitize d.name = c!"_line_" → (varInfo d).action = .join) ∧
      (sanitize d.name ∉ [c!"_start_", c!"_end_", c!"_line_"] → (varInfo d).action = .add)) ∧
    ((varInfo d).cut = true ↔ sanitize d.name = c!"_start_" ∨ sanitize d.name = c!"_end_" ∨ ∃ f, Attr.set f ∈ d.attrs) ∧
    ((varInfo d).isLine = true ↔ sanitize d.name = c!"_line_" ∨ ∃ r, Attr.line r ∈ d.attrs) := by
  have nm : ∀ (as : List Attr) (v : VarInfo), (as.foldl addAttr v).name = v.name := by
    intro as
    induction as with
    | nil => intro v; rfl
    | cons a as ih => intro v; rw [List.foldl_cons, ih]; cases a <;> rfl
  have none_ : ∀ (as : List Attr) (v : VarInfo), (∀ a ∈ as, attrAction v.name a = none) → (as.foldl addAttr v).action = v.action := by
    intro as
    induction as with
    | nil => intro v _; rfl
    | cons a as ih =>
      intro v h
      have h0 := h a (by simp)
      have e : (addAttr v a).name = v.name := by cases a <;> rfl
      rw [List.foldl_cons, ih _ (fun b hb => by rw [e]; exact h b (by simp [hb]))]
      cases a <;> simp [attrAction] at h0 <;> rfl
  have some_ : ∀ (a : Attr) (v : VarInfo) (act : Action), attrAction v.name a = some act → (addAttr v a).action = act := by
    intro a v act h
    cases a <;> simp [attrAction] at h <;> simp [addAttr, h]
  have cut_ : ∀ (as : List Attr) (v : VarInfo), (as.foldl addAttr v).cut = true ↔ v.cut = true ∨ ∃ f, Attr.set f ∈ as := by
    intro as
    induction as with
    | nil => intro v; simp
    | cons a as ih => intro v; rw [List.foldl_cons, ih]; cases a <;> simp [addAttr]
  have line_ : ∀ (as : List Attr) (v : VarInfo), (as.foldl addAttr v).isLine = true ↔ v.isLine = true ∨ ∃ r, Attr.line r ∈ as := by
    intro as
    induction as with
    | nil => intro v; simp
    | cons a as ih => intro v; rw [List.foldl_cons, ih]; cases a <;> simp [addAttr]
  have n0 : ∀ v, (nameAttr v).name = v.name := by intro v; unfold nameAttr; repeat' split <;> try rfl
  refine ⟨?_, ?_, ?_, ?_⟩
  · intro pre a post act hd ha hp
    unfold varInfo
    rw [hd, List.foldl_append, List.foldl_cons]
    have e1 : ∀ v : VarInfo, v.name = sanitize d.name → ((post.foldl addAttr (addAttr v a)).action = act) := by
      intro v hv
      have e : (addAttr v a).name = v.name := by cases a <;> rfl
      rw [none_ _ _ (fun b hb => by rw [e, hv]; exact hp b hb), some_ a v act (by rw [hv]; exact ha)]
    refine e1 _ ?_
    rw [nm, n0]
  · intro h
    unfold varInfo
    rw [none_ _ _ (fun b hb => by rw [n0]; exact h b hb)]
    refine ⟨?_, ?_, ?_, ?_⟩
    · intro e; simp [nameAttr, e]
    · intro e; simp [nameAttr, e]
    · intro e; simp [nameAttr, e]
    · intro e
      simp only [List.mem_cons, List.not_mem_nil, or_false, not_or] at e
      simp only [nameAttr, e.1, e.2.1, e.2.2, if_false]
      split <;> rfl
  · unfold varInfo
    rw [cut_]
    simp only [nameAttr]
    repeat' split
    all_goals simp_all
  · unfold varInfo
    rw [line_]
    simp only [nameAttr]
    repeat' split
    all_goals simp_all

example : (varInfo ⟨c!"_start_", none, []⟩).action = .startempty ∧ (varInfo ⟨c!"x", none, [.start, .fn ⟨c!"upper", [], []⟩]⟩).action = .start ∧
    (varInfo ⟨c!"x", none, [.start, .joinmatches ⟨c!"joinmatches", [], []⟩]⟩).action = .join := by decide

/-! ## C65 -/

/-- C65. Every line of a group is in exactly one of three lists, in template order: a line with `_end_` ends the group;
otherwise the first line, lines with `_start_` and - for method table - all lines start it; everything else, and
everything after the child groups, is an ordinary line. -/
theorem C65_line_classes (tail table : Bool) (lines : List LineRx) :
    let starts (p : LineRx × Nat) : Bool := !tail && (p.2 == 0 || table || p.1.action.isStart)
    let g := classify tail table 0 lines ⟨[], [], []⟩
    g.end_ = (lines.zipIdx.filter (fun p => p.1.action = .end_)).map (·.1) ∧
    g.start = (lines.zipIdx.filter (fun p => p.1.action ≠ .end_ ∧ starts p = true)).map
      (fun p => if p.1.action.isStart then p.1 else { p.1 with action := .start }) ∧
    g.normal = (lines.zipIdx.filter (fun p => p.1.action ≠ .end_ ∧ starts p = false)).map (·.1) := by
  intro starts g
  have key : ∀ (lines : List LineRx) (i : Nat) (q : GroupLines),
      (classify tail table i lines q).end_ = q.end_ ++ ((lines.zipIdx i).filter (fun p => p.1.action = .end_)).map (·.1) ∧
      (classify tail table i lines q).start = q.start ++ ((lines.zipIdx i).filter (fun p => p.1.action ≠ .end_ ∧ starts p = true)).map
        (fun p => if p.1.action.isStart then p.1 else { p.1 with action := .start }) ∧
      (classify tail table i lines q).normal =
        q.normal ++ ((lines.zipIdx i).filter (fun p => p.1.action ≠ .end_ ∧ starts p = false)).map (·.1) := by
    intro lines
    induction lines with
    | nil => intro i q; simp [classify]
    | cons l ls ih =>
      intro i q
      simp only [classify, List.zipIdx_cons]
      by_cases h1 : l.action = .end_
      · obtain ⟨a, b, c⟩ := ih (i + 1) { q with end_ := q.end_ ++ [l] }
        simp [h1, a, b, c]
      · cases tail with
        | true =>
          have hs : starts (l, i) = false := rfl
          obtain ⟨a, b, c⟩ := ih (i + 1) { q with normal := q.normal ++ [l] }
          simp [h1, hs, a, b, c]
        | false =>
          by_cases h2 : (decide (i = 0) || table) = true
          · have hs : starts (l, i) = true := by
              simp only [Bool.or_eq_true, decide_eq_true_eq] at h2
              rcases h2 with h2 | h2 <;> simp [starts, h2]
            obtain ⟨a, b, c⟩ := ih (i + 1) { q with start := q.start ++ [if l.action.isStart then l else { l with action := .start }] }
            simp [h1, h2, hs, a, b, c]
          · by_cases h3 : l.action.isStart = true
            · have hs : starts (l, i) = true := by simp [starts, h3]
              obtain ⟨a, b, c⟩ := ih (i + 1) { q with start := q.start ++ [l] }
              simp [h1, h2, h3, hs, a, b, c]
            · have hs : starts (l, i) = false := by
                simp only [Bool.or_eq_true, decide_eq_true_eq, not_or, Bool.not_eq_true] at h2
                simp [starts, h2.1, h2.2, h3]
              obtain ⟨a, b, c⟩ := ih (i + 1) { q with normal := q.normal ++ [l] }
              simp [h1, h2, h3, hs, a, b, c]
  have := key lines 0 ⟨[], [], []⟩
  simpa using this

example : (let l : Action → LineRx := fun a => ⟨.eps, [], a, false⟩
    let g := classify false false 0 [l .add, l .add, l .startempty, l .end_] ⟨[], [], []⟩
    (g.start.map (·.action), g.normal.map (·.action), g.end_.map (·.action))) =
    ([.start, .startempty], [.add], [.end_]) := by decide

end Props
