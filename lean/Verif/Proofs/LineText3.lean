import Verif.Proofs.LineText2
/-!
# What the text of a line is compiled to
-/

namespace TTP
open Py Py.Re Py.ReText

/-! ## Expressions with the same matches -/

theorem run_seq_congr {a a' b b' : Re} (ha : run a = run a') (hb : run b = run b') : run (.seq a b) = run (.seq a' b') := by
  funext s; simp only [run, ha, hb]

theorem run_alt_congr {a a' b b' : Re} (ha : run a = run a') (hb : run b = run b') : run (.alt a b) = run (.alt a' b') := by
  funext s; simp only [run, ha, hb]

theorem run_cap_congr {a a' : Re} (n : Str) (ha : run a = run a') : run (.cap n a) = run (.cap n a') := by
  funext s; simp only [run, ha]

theorem run_star_congr {a a' : Re} (g : Bool) (ha : run a = run a') : run (.star g a) = run (.star g a') := by
  funext s; simp only [run, ha]

theorem run_look_congr {a a' : Re} (ha : run a = run a') : run (.look a) = run (.look a') := by
  funext s; simp only [run, ha]

theorem run_plus_congr {a a' : Re} (g : Bool) (ha : run a = run a') : run (Re.plus g a) = run (Re.plus g a') :=
  run_seq_congr ha (run_star_congr g ha)

theorem run_seq_eps (a : Re) : run (.seq a .eps) = run a := by
  funext s; simp [run]

theorem run_eps_seq (a : Re) : run (.seq .eps a) = run a := by
  funext s; simp [run]

theorem run_seq_assoc (a b c : Re) : run (.seq (.seq a b) c) = run (.seq a (.seq b c)) := by
  funext s
  simp only [run, List.flatMap_assoc, List.flatMap_map, List.map_flatMap, List.map_map]
  congr 1
  funext h
  congr 1
  funext h2
  congr 1
  funext h3
  simp

theorem run_cls_congr {c d : CC} (h : ∀ x, c.test x = d.test x) : run (.cls c) = run (.cls d) := by
  funext s
  cases s with
  | nil => rfl
  | cons x s => simp only [run, h]

/-- expressions one after the other -/
def chain (rs : List Re) (t : Re) : Re := rs.foldr .seq t

theorem run_chain_congr (rs : List Re) {a b : Re} (h : run a = run b) : run (chain rs a) = run (chain rs b) := by
  induction rs with
  | nil => exact h
  | cons r rs ih => exact run_seq_congr rfl ih

theorem run_chain (rs : List Re) (t : Re) : run (chain rs t) = run (.seq (chain rs .eps) t) := by
  induction rs with
  | nil => exact (run_eps_seq t).symm
  | cons r rs ih => exact (run_seq_congr rfl ih).trans (run_seq_assoc _ _ _).symm

theorem names_chain (rs : List Re) (t : Re) : names (chain rs t) = rs.flatMap names ++ names t := by
  induction rs with
  | nil => rfl
  | cons r rs ih =>
    show names r ++ names (chain rs t) = _
    rw [ih, List.flatMap_cons, List.append_assoc]

/-! ## Pieces of text that are read as items -/

/-- The text is read as the items `rs` in front of anything that does not begin with a quantifier. -/
structure Chunk (t : Str) (rs : List Re) : Prop where
  start : ∀ c u, t = c :: u → c ∉ ['*', '+', '?', '{']
  reads : ∀ q r' rest, quantHead q = none → Parses .sequence q r' rest → Parses .sequence (t ++ q) (chain rs r') rest

theorem Chunk.nil : Chunk [] [] := ⟨by rintro c u ⟨⟩, fun _ _ _ _ h => h⟩

theorem Chunk.noQ {t : Str} {rs : List Re} (h : Chunk t rs) (q : Str) (hq : quantHead q = none) : quantHead (t ++ q) = none := by
  cases t with
  | nil => exact hq
  | cons c u => exact quantHead_none c _ (h.start c u rfl)

theorem Chunk.append {a b : Str} {rs rs' : List Re} (h : Chunk a rs) (h' : Chunk b rs') : Chunk (a ++ b) (rs ++ rs') := by
  refine ⟨?_, ?_⟩
  · intro c u e
    cases a with
    | nil => exact h'.start c u e
    | cons d v => injection e with e1 _; subst e1; exact h.start d v rfl
  · intro q r' rest hq hp
    have := h.reads (b ++ q) _ rest (h'.noQ q hq) (h'.reads q r' rest hq hp)
    rw [List.append_assoc]
    simpa [chain] using this

theorem Chunk.item {c : Char} {u : Str} {r : Re} (hc : c ∉ ['*', '+', '?', '{', '|', ')'])
    (h : ∀ q, quantHead q = none → ∃ n, parse n .item (c :: u ++ q) = some (r, q)) : Chunk (c :: u) [r] := by
  simp only [List.mem_cons, List.not_mem_nil, or_false, not_or] at hc
  refine ⟨?_, ?_⟩
  · intro d v e; injection e with e1 _; subst e1; simp [hc]
  · rintro q r' rest hq ⟨k, hk⟩
    obtain ⟨n, hn⟩ := h q hq
    refine ⟨max n k + 1, ?_⟩
    rw [parse, if_neg (by simp [ends, hc]), parse_le (Nat.le_max_left n k) hn, moreItems, parse_le (Nat.le_max_right n k) hk]
    rfl

theorem quant_none (r : Re) (q : Str) (h : quantHead q = none) : quant r q = some (r, q) := by unfold quant; rw [h]

theorem item_one (s q : Str) (c : CC) (h : head s = some (.one c, q)) : parse 1 .item s = quant (.cls c) q := by
  rw [parse_item_eq, h]

theorem plain_escape (c : Char) (h : c ∈ special) : escape c = some (.lit c) := by
  have : ∀ x ∈ special, escape x = some (.lit x) := by decide
  exact this c h

theorem Chunk.escapeChar (c : Char) : Chunk (escapeChar c) [.cls (.lit c)] := by
  unfold Py.ReText.escapeChar
  split
  · next hs =>
    refine Chunk.item (by decide) (fun q hq => ⟨1, ?_⟩)
    rw [item_one _ q (.lit c) (by show (escape c).map _ = _; rw [plain_escape c hs]; rfl), quant_none _ _ hq]
  · next hs =>
    have hl : ∀ l : List Char, (∀ x ∈ l, x ∈ special) → c ∉ l := fun l h hc => hs (h c hc)
    refine Chunk.item (hl _ (by decide)) (fun q hq => ⟨1, ?_⟩)
    show parse 1 .item (c :: q) = _
    rw [item_one _ q (.lit c) (head_plain c q (hl _ (by decide))), quant_none _ _ hq]

theorem Chunk.space (c : Char) (h : isSpace c = true) : Chunk [c] [.cls (.lit c)] := by
  have hl : ∀ l : List Char, (∀ x ∈ l, isSpace x = false) → c ∉ l := by
    intro l hl hc; rw [hl c hc] at h; cases h
  refine Chunk.item (hl _ (by decide)) (fun q hq => ⟨1, ?_⟩)
  rw [show [c] ++ q = c :: q from rfl, item_one _ q (.lit c) (head_plain c q (hl _ (by decide))), quant_none _ _ hq]

theorem Chunk.spaces (t : Str) (h : ∀ c ∈ t, isSpace c = true) : Chunk t (t.map (fun c => .cls (.lit c))) := by
  induction t with
  | nil => exact Chunk.nil
  | cons c t ih => exact (Chunk.space c (h c (by simp))).append (ih (fun d hd => h d (by simp [hd])))

/-- a class with `+` -/
theorem quant_plus (c : CC) (q : Str) (h : quantHead q = none) : quant (.cls c) ('+' :: q) = some (Re.plus true (.cls c), q) := by
  have hl : lazyMark q = (false, q) := by
    cases q with
    | nil => rfl
    | cons d q =>
      unfold lazyMark
      split
      · next e => injection e with e _; subst e; cases h
      · rfl
  unfold quant
  rw [show quantHead ('+' :: q) = some (1, none, q) from rfl]
  simp only [hl, h, Option.isSome_none, names, List.isEmpty_nil, Bool.not_true, Bool.or_self, Bool.false_eq_true, if_false]
  rfl

/-- a class with `*` -/
theorem quant_star (c : CC) (q : Str) (h : quantHead q = none) : quant (.cls c) ('*' :: q) = some (.star true (.cls c), q) := by
  have hl : lazyMark q = (false, q) := by
    cases q with
    | nil => rfl
    | cons d q =>
      unfold lazyMark
      split
      · next e => injection e with e _; subst e; cases h
      · rfl
  unfold quant
  rw [show quantHead ('*' :: q) = some (0, none, q) from rfl]
  simp only [hl, h, Option.isSome_none, names, List.isEmpty_nil, Bool.not_true, Bool.or_self, Bool.false_eq_true, if_false]
  rfl

theorem Chunk.blanks : Chunk blanksText [Re.plus true (.cls (.set false [.ch ' ', .ch '\t']))] := by
  refine Chunk.item (by decide) (fun q hq => ⟨1, ?_⟩)
  rw [item_one _ ('+' :: q) (.set false [.ch ' ', .ch '\t']) rfl, quant_plus _ _ hq]

theorem Chunk.digits : Chunk c!"\\d+" [Re.plus true (.cls .digit)] := by
  refine Chunk.item (by decide) (fun q hq => ⟨1, ?_⟩)
  rw [item_one _ ('+' :: q) .digit rfl, quant_plus _ _ hq]

theorem Chunk.word : Chunk c!"\\S+" [reWORD] := by
  refine Chunk.item (by decide) (fun q hq => ⟨1, ?_⟩)
  rw [item_one _ ('+' :: q) .nspace rfl, quant_plus _ _ hq]
  rfl

theorem Chunk.newline : Chunk c!"\\n" [.cls (.lit '\n')] := by
  refine Chunk.item (by decide) (fun q hq => ⟨1, ?_⟩)
  rw [item_one _ q (.lit '\n') rfl, quant_none _ _ hq]

/-- a group around a text that is an expression by itself -/
theorem Chunk.group (p : Str) (r : Re) (h : parseAll p = some r) : Chunk (c!"(?:" ++ p ++ c!")") [r] := by
  refine Chunk.item (by decide) (fun q hq => ?_)
  obtain ⟨n, hn⟩ := Parses_close h q
  refine ⟨n + 1, ?_⟩
  have e : '(' :: (['?', ':'] ++ p ++ c!")") ++ q = '(' :: '?' :: ':' :: (p ++ ')' :: q) := by simp
  have h1 : head ('(' :: '?' :: ':' :: (p ++ ')' :: q)) = some (.group, p ++ ')' :: q) := rfl
  show parse (n + 1) .item ('(' :: (['?', ':'] ++ p ++ c!")") ++ q) = _
  rw [e, parse_item_group (Or.inl rfl) h1 hn, quant_none _ _ hq]
  rfl

/-- alternatives in groups -/
def altTree : List Re → Re
  | [] => .eps
  | [r] => .seq r .eps
  | r :: rs => .alt (.seq r .eps) (altTree rs)

theorem run_altTree (rs : List Re) (h : rs ≠ []) : run (altTree rs) = run (altAll rs) ∧ names (altTree rs) = names (altAll rs) := by
  induction rs with
  | nil => exact absurd rfl h
  | cons r rs ih =>
    cases rs with
    | nil => exact ⟨run_seq_eps r, by simp [altTree, altAll, names]⟩
    | cons r' rs =>
      obtain ⟨i1, i2⟩ := ih (by simp)
      exact ⟨run_alt_congr (run_seq_eps r) i1, by simp [altTree, altAll, names] at i2 ⊢; exact i2⟩

theorem seq_end (q : Str) (he : ends q = true) : Parses .sequence q .eps q := ⟨1, by rw [parse, if_pos he]⟩

theorem close_noQ (c : Char) (q : Str) (h : c = ')' ∨ c = '|') : quantHead (c :: q) = none := by
  rcases h with rfl | rfl <;> rfl

/-- all patterns are expressions by themselves -/
def ReadsAll : List Str → List Re → Prop
  | [], [] => True
  | p :: ps, r :: rs => parseAll p = some r ∧ ReadsAll ps rs
  | _, _ => False

theorem alts_groups (ps : List Str) (rs : List Re) (hne : ps ≠ []) (h : ReadsAll ps rs) (q : Str) :
    Parses .alts (c!"(?:" ++ join c!")|(?:" ps ++ c!"))" ++ q) (altTree rs) (')' :: q) := by
  induction ps generalizing rs with
  | nil => exact absurd rfl hne
  | cons p ps ih =>
    cases rs with
    | nil => cases h
    | cons r rs =>
      obtain ⟨h1, h2⟩ := h
      have hg := Chunk.group p r h1
      cases ps with
      | nil =>
        cases rs with
        | cons _ _ => cases h2
        | nil =>
          obtain ⟨n, hn⟩ := hg.reads (')' :: q) .eps (')' :: q) rfl (seq_end _ rfl)
          refine ⟨n + 1, ?_⟩
          have e : c!"(?:" ++ join c!")|(?:" [p] ++ c!"))" ++ q = c!"(?:" ++ p ++ c!")" ++ ')' :: q := by simp [join]
          rw [e, parse, hn]
          rfl
      | cons p' ps =>
        cases rs with
        | nil => cases h2
        | cons r' rs =>
          obtain ⟨k, hk⟩ := ih (r' :: rs) (by simp) h2
          obtain ⟨n, hn⟩ := hg.reads ('|' :: (c!"(?:" ++ join c!")|(?:" (p' :: ps) ++ c!"))" ++ q)) .eps _ rfl (seq_end _ rfl)
          refine ⟨max n k + 1, ?_⟩
          have e : c!"(?:" ++ join c!")|(?:" (p :: p' :: ps) ++ c!"))" ++ q =
              c!"(?:" ++ p ++ c!")" ++ '|' :: (c!"(?:" ++ join c!")|(?:" (p' :: ps) ++ c!"))" ++ q) := by
            rw [join_cons2]; simp
          rw [e, parse, parse_le (Nat.le_max_left n k) hn, moreAlts, parse_le (Nat.le_max_right n k) hk]
          rfl

theorem nameOk_noGt (n : Str) (h : nameOk n = true) : '>' ∉ n ∧ '{' ∉ n := by
  cases n with
  | nil => cases h
  | cons c cs =>
    simp only [nameOk, Bool.and_eq_true, List.all_eq_true] at h
    refine ⟨fun hm => ?_, fun hm => ?_⟩
    · have := h.2 _ hm; revert this; decide
    · have := h.2 _ hm; revert this; decide

theorem Chunk.named (name : Str) (ps : List Str) (rs : List Re) (hn : nameOk name = true) (hne : ps ≠ []) (h : ReadsAll ps rs) :
    Chunk (c!"(?P<" ++ name ++ c!">(?:" ++ join c!")|(?:" ps ++ c!"))") [.cap name (altTree rs)] := by
  refine Chunk.item (by decide) (fun q hq => ?_)
  obtain ⟨n, hp⟩ := alts_groups ps rs hne h q
  refine ⟨n + 1, ?_⟩
  have e : '(' :: (['?', 'P', '<'] ++ name ++ c!">(?:" ++ join c!")|(?:" ps ++ c!"))") ++ q =
      '(' :: '?' :: 'P' :: '<' :: (name ++ '>' :: (c!"(?:" ++ join c!")|(?:" ps ++ c!"))" ++ q)) := by simp
  have h1 : head ('(' :: '?' :: 'P' :: '<' :: (name ++ '>' :: (c!"(?:" ++ join c!")|(?:" ps ++ c!"))" ++ q))) =
      some (.named name, c!"(?:" ++ join c!")|(?:" ps ++ c!"))" ++ q) := by
    show namedHead _ = _
    unfold namedHead
    rw [untilGt_append _ _ (nameOk_noGt name hn).1]
    dsimp only
    rw [if_pos hn]
  show parse (n + 1) .item ('(' :: (['?', 'P', '<'] ++ name ++ c!">(?:" ++ join c!")|(?:" ps ++ c!"))") ++ q) = _
  rw [e, parse_item_group (Or.inr (Or.inl ⟨name, rfl⟩)) h1 hp, quant_none _ _ hq]
  rfl

/-- the end of the line -/
def tailItems : List Re :=
  [.star true (.cls (.set false [.ch '\t', .ch ' '])),
   .look (.alt (.seq (.cls (.lit '\n')) .eps) (.seq (.cls (.lit '\r')) (.seq (.cls (.lit '\n')) .eps)))]

theorem Chunk.tail : Chunk tailText tailItems := by
  have h1 : Chunk c!"[\\t ]*" [.star true (.cls (.set false [.ch '\t', .ch ' ']))] := by
    refine Chunk.item (by decide) (fun q hq => ⟨1, ?_⟩)
    rw [item_one _ ('*' :: q) (.set false [.ch '\t', .ch ' ']) rfl, quant_star _ _ hq]
  have h2 : Chunk c!"(?=\\n|\\r\\n)" [.look (.alt (.seq (.cls (.lit '\n')) .eps) (.seq (.cls (.lit '\r')) (.seq (.cls (.lit '\n')) .eps)))] := by
    refine Chunk.item (by decide) (fun q hq => ?_)
    have hp : parseAll c!"\\n|\\r\\n" = some (.alt (.seq (.cls (.lit '\n')) .eps) (.seq (.cls (.lit '\r')) (.seq (.cls (.lit '\n')) .eps))) := by decide
    obtain ⟨n, hn⟩ := Parses_close hp q
    refine ⟨n + 1, ?_⟩
    have h1 : head (c!"(?=\\n|\\r\\n)" ++ q) = some (.look, c!"\\n|\\r\\n" ++ ')' :: q) := rfl
    rw [show '(' :: c!"?=\\n|\\r\\n)" ++ q = c!"(?=\\n|\\r\\n)" ++ q from rfl, parse_item_group (Or.inr (Or.inr rfl)) h1 hn, quant_none _ _ hq]
    rfl
  exact h1.append h2

end TTP
