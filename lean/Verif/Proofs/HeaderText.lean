import Verif.Proofs.LineText6
import Verif.Proofs.PyStr
/-! # The text of a line of headings -/

namespace TTP
open Py Py.Re Py.ReText Spec

theorem digitRun_append (w : Str) (hw : ∀ c ∈ w, isDigit c = true) (c : Char) (q : Str) (hc : isDigit c = false) :
    digitRun (w ++ c :: q) = (w, c :: q) := by
  induction w with
  | nil => simp [digitRun, hc]
  | cons d w ih =>
    rw [List.cons_append, digitRun, if_pos (hw d (by simp)), ih (fun x hx => hw x (by simp [hx]))]

theorem digitRun_nat (n : Nat) (c : Char) (q : Str) (hc : isDigit c = false) : digitRun (natStr n ++ c :: q) = (natStr n, c :: q) :=
  digitRun_append _ (fun x hx => List.all_eq_true.1 (natStr_digits n) x hx) c q hc

theorem braces_exact (n : Nat) (q : Str) : braces (natStr n ++ '}' :: q) = some (n, some n, q) := by
  unfold braces
  rw [digitRun_nat n '}' q (by decide)]
  simp only [natStr_ne_nil, if_false, natStr_val]

theorem braces_range (lo : Char) (hlo : isDigit lo = true) (n : Nat) (q : Str) :
    braces (lo :: ',' :: (natStr n ++ '}' :: q)) = some (digitVal lo, some n, q) := by
  unfold braces
  have h1 : digitRun (lo :: ',' :: (natStr n ++ '}' :: q)) = ([lo], ',' :: (natStr n ++ '}' :: q)) :=
    digitRun_append [lo] (by simpa using hlo) ',' _ (by decide)
  rw [h1]
  simp only [digitRun_nat n '}' q (by decide), natStr_ne_nil, if_false, natStr_val]
  simp [natOfDigits]

theorem braces_open (q : Str) : braces (c!"1,}" ++ q) = some (1, none, q) := by
  unfold braces
  have h1 : digitRun (c!"1,}" ++ q) = (['1'], ',' :: '}' :: q) := digitRun_append ['1'] (by decide) ',' _ (by decide)
  have h2 : digitRun ('}' :: q) = ([], '}' :: q) := digitRun_append [] (by simp) '}' _ (by decide)
  rw [h1]
  simp only [h2, if_true]
  rfl

theorem lazyMark_none (q : Str) (h : quantHead q = none) : lazyMark q = (false, q) := by
  cases q with
  | nil => rfl
  | cons c q =>
    by_cases hc : c = '?'
    · subst hc; cases h
    · unfold lazyMark
      split
      · next e => injection e with e _; exact absurd e hc
      · rfl

theorem quant_braces (c : CC) (b q : Str) (lo : Nat) (hi : Option Nat) (hb : braces (b ++ q) = some (lo, hi, q)) (hq : quantHead q = none) :
    quant (.cls c) ('{' :: (b ++ q)) = (repeated true lo hi (.cls c)).map (fun x => (x, q)) := by
  unfold quant
  have : quantHead ('{' :: (b ++ q)) = some (lo, hi, q) := hb
  rw [this]
  simp [lazyMark_none q hq, hq, names]

theorem times_dots (n : Nat) : times n (.cls .dot) .eps = dots n := by
  induction n with
  | zero => rfl
  | succ n ih => rw [times, dots, ih]

theorem atMost_upTo (n : Nat) : atMost true n (.cls .dot) = upTo n := by
  induction n with
  | zero => rfl
  | succ n ih => rw [atMost, upTo, ih]; rfl

/-- the text and the expression of a column -/
def ColRel (t : Str × Str) (r : Str × Re) : Prop :=
  t.1 = r.1 ∧ names r.2 = [] ∧ ∀ q, quantHead q = none → quant (.cls .dot) (t.2 ++ q) = some (r.2, q)

theorem names_times (n : Nat) (r t : Re) (hr : names r = []) (ht : names t = []) : names (times n r t) = [] := by
  induction n with
  | zero => exact ht
  | succ n ih => simp [times, names, hr, ih]

theorem names_atMost (g : Bool) (n : Nat) (r : Re) (hr : names r = []) : names (atMost g n r) = [] := by
  induction n with
  | zero => rfl
  | succ n ih => cases g <;> simp [atMost, names, hr, ih]

theorem col_exact (h : Str) : ColRel (strip h, c!"{" ++ natStr h.length ++ c!"}") (strip h, dots h.length) := by
  refine ⟨rfl, by rw [← times_dots]; exact names_times _ _ _ rfl rfl, fun q hq => ?_⟩
  have e : c!"{" ++ natStr h.length ++ c!"}" ++ q = '{' :: ((natStr h.length ++ c!"}") ++ q) := by simp
  rw [e, quant_braces .dot _ q h.length (some h.length) (by rw [List.append_assoc]; exact braces_exact _ q) hq]
  simp [repeated, atMost, times_dots]

theorem col_first (m : Str) (hm : m ≠ []) : ColRel (strip m, c!"{1," ++ natStr m.length ++ c!"}") (strip m, .seq (.cls .dot) (upTo (m.length - 1))) := by
  refine ⟨rfl, by show names (.cls .dot) ++ names (upTo _) = []; rw [← atMost_upTo]; exact names_atMost _ _ _ rfl, fun q hq => ?_⟩
  have hl : 1 ≤ m.length := by cases m with | nil => exact absurd rfl hm | cons _ _ => simp
  have e : c!"{1," ++ natStr m.length ++ c!"}" ++ q = '{' :: ((c!"1," ++ natStr m.length ++ c!"}") ++ q) := by simp
  rw [e, quant_braces .dot _ q 1 (some m.length) (by
    have := braces_range '1' (by decide) m.length q
    simpa [digitVal] using this) hq]
  simp only [repeated, Option.map]
  rw [if_neg (by omega)]
  simp [times, atMost_upTo]

theorem col_rest (m : Str) : ColRel (strip m, c!"{0," ++ natStr m.length ++ c!"}") (strip m, upTo m.length) := by
  refine ⟨rfl, by rw [← atMost_upTo]; exact names_atMost _ _ _ rfl, fun q hq => ?_⟩
  have e : c!"{0," ++ natStr m.length ++ c!"}" ++ q = '{' :: ((c!"0," ++ natStr m.length ++ c!"}") ++ q) := by simp
  rw [e, quant_braces .dot _ q 0 (some m.length) (by
    have := braces_range '0' (by decide) m.length q
    simpa [digitVal] using this) hq]
  simp [repeated, times, atMost_upTo]

theorem col_last (n : Str) (b : Prop) [Decidable b] :
    ColRel (n, if b then c!"{1,}" else c!"*") (n, if b then Re.plus true (.cls .dot) else .star true (.cls .dot)) := by
  refine ⟨rfl, by dsimp only; split <;> rfl, fun q hq => ?_⟩
  dsimp only
  split
  · have e : c!"{1,}" ++ q = '{' :: (c!"1,}" ++ q) := rfl
    rw [e, quant_braces .dot _ q 1 none (braces_open q) hq]
    rfl
  · exact quant_star .dot q hq

/-- pairwise -/
inductive Cols : List (Str × Str) → List (Str × Re) → Prop
  | nil : Cols [] []
  | cons {t r ts rs} : ColRel t r → Cols ts rs → Cols (t :: ts) (r :: rs)

theorem Cols.append {a b c d} (h : Cols a c) (h' : Cols b d) : Cols (a ++ b) (c ++ d) := by
  induction h with
  | nil => exact h'
  | cons x _ ih => exact .cons x ih

theorem Cols.map {α : Type} (f : α → Str × Str) (g : α → Str × Re) (l : List α) (h : ∀ x ∈ l, ColRel (f x) (g x)) : Cols (l.map f) (l.map g) := by
  induction l with
  | nil => exact .nil
  | cons x l ih => exact .cons (h x (by simp)) (ih (fun y hy => h y (by simp [hy])))

theorem Cols.dropLast {a c} (h : Cols a c) : Cols a.dropLast c.dropLast := by
  induction h with
  | nil => exact .nil
  | cons x h ih =>
    cases h with
    | nil => exact .nil
    | cons y h => exact .cons x ih

theorem Cols.names {a c} (h : Cols a c) : a.map Prod.fst = c.map Prod.fst := by
  induction h with
  | nil => rfl
  | cons x _ ih => simp [x.1, ih]

theorem atIndex_mem {α : Type} (xs : List α) (k : Int) (x : α) (h : atIndex xs k = .ok x) : x ∈ xs := by
  unfold atIndex at h
  split at h
  · split at h
    · split at h
      · next y e => cases h; exact List.mem_of_getElem? e
      · cases h
    · cases h
  · split at h
    · next y e => cases h; exact List.mem_of_getElem? e
    · cases h

theorem headerCols_rel (hs : List Str) (hne : ∀ h ∈ hs, h ≠ []) (columns : Int) (row : List (Str × Re)) (h : headerRows hs columns = .ok row) :
    ∃ cols, headerCols hs columns = .ok cols ∧ Cols cols row := by
  unfold headerRows at h
  obtain ⟨m, hm, h⟩ := (bind_ok_iff _ _ _).1 h
  obtain ⟨l, hl, h⟩ := (bind_ok_iff _ _ _).1 h
  cases h
  refine ⟨_, by unfold headerCols; rw [hm, ok_bind]; dsimp only; rw [hl, ok_bind]; rfl, ?_⟩
  refine Cols.append (Cols.dropLast ?_) (.cons (col_last _ _) .nil)
  exact ((Cols.map _ _ _ (fun h _ => col_exact h)).append (.cons (col_first m (hne m (atIndex_mem _ _ _ hm))) .nil)).append
    (Cols.map _ _ _ (fun h _ => col_rest h))

theorem col_chunk {t : Str × Str} {r : Str × Re} (h : ColRel t r) (hn : nameOk r.1 = true) : Chunk (headerCol t) [.cap r.1 (.seq r.2 .eps)] := by
  obtain ⟨h1, h2, h3⟩ := h
  unfold headerCol
  rw [h1]
  refine Chunk.item (by decide) (fun q hq => ?_)
  have hp : Parses .alts ('.' :: (t.2 ++ ')' :: q)) (.seq r.2 .eps) (')' :: q) := by
    refine ⟨3, ?_⟩
    have hi : parse 1 .item ('.' :: (t.2 ++ ')' :: q)) = some (r.2, ')' :: q) := by
      rw [item_one _ (t.2 ++ ')' :: q) .dot rfl]
      exact h3 _ rfl
    rw [parse, parse, if_neg (by simp [ends]), parse_le (by omega) hi]
    simp [moreItems, parse, ends, moreAlts]
  obtain ⟨n, hp⟩ := hp
  refine ⟨n + 1, ?_⟩
  have e : '(' :: (['?', 'P', '<'] ++ r.1 ++ c!">." ++ t.2 ++ c!")") ++ q = '(' :: '?' :: 'P' :: '<' :: (r.1 ++ '>' :: ('.' :: (t.2 ++ ')' :: q))) := by simp
  have h1 : head ('(' :: '?' :: 'P' :: '<' :: (r.1 ++ '>' :: ('.' :: (t.2 ++ ')' :: q)))) = some (.named r.1, '.' :: (t.2 ++ ')' :: q)) := by
    show namedHead _ = _
    unfold namedHead
    rw [untilGt_append _ _ (nameOk_noGt r.1 hn).1]
    dsimp only
    rw [if_pos hn]
  show parse (n + 1) .item ('(' :: (['?', 'P', '<'] ++ r.1 ++ c!">." ++ t.2 ++ c!")") ++ q) = _
  rw [e, parse_item_group (Or.inr (Or.inl ⟨r.1, rfl⟩)) h1 hp, quant_none _ _ hq]
  rfl

theorem cols_chunk {cols : List (Str × Str)} {row : List (Str × Re)} (h : Cols cols row) (hn : ∀ r ∈ row, nameOk r.1 = true) :
    Chunk (cols.map headerCol).flatten (row.map (fun r => .cap r.1 (.seq r.2 .eps))) := by
  induction h with
  | nil => exact Chunk.nil
  | cons x _ ih => exact (col_chunk x (hn _ (by simp))).append (ih (fun r hr => hn r (by simp [hr])))

/-- the end of a line of headings -/
theorem look_chunk : Chunk c!"(?=\\n|\\r\\n)" [.look (.alt (.seq (.cls (.lit '\n')) .eps) (.seq (.cls (.lit '\r')) (.seq (.cls (.lit '\n')) .eps)))] := by
  refine Chunk.item (by decide) (fun q hq => ?_)
  have hp : parseAll c!"\\n|\\r\\n" = some (.alt (.seq (.cls (.lit '\n')) .eps) (.seq (.cls (.lit '\r')) (.seq (.cls (.lit '\n')) .eps))) := by decide
  obtain ⟨n, hn⟩ := Parses_close hp q
  refine ⟨n + 1, ?_⟩
  have h1 : head (c!"(?=\\n|\\r\\n)" ++ q) = some (.look, c!"\\n|\\r\\n" ++ ')' :: q) := rfl
  rw [show '(' :: c!"?=\\n|\\r\\n)" ++ q = c!"(?=\\n|\\r\\n)" ++ q from rfl, parse_item_group (Or.inr (Or.inr rfl)) h1 hn, quant_none _ _ hq]
  rfl

theorem header_parse {cols : List (Str × Str)} {row : List (Str × Re)} (h : Cols cols row) (hn : ∀ r ∈ row, nameOk r.1 = true) :
    ∃ T, parseAll (headerText cols) = some T ∧ run T = run (headerRe row) ∧ names T = row.map Prod.fst := by
  have hc := (Chunk.newline.append (cols_chunk h hn)).append look_chunk
  obtain ⟨n, hp⟩ := hc.reads [] .eps [] rfl (seq_end [] rfl)
  refine ⟨chain ([.cls (.lit '\n')] ++ row.map (fun r => .cap r.1 (.seq r.2 .eps)) ++
    [.look (.alt (.seq (.cls (.lit '\n')) .eps) (.seq (.cls (.lit '\r')) (.seq (.cls (.lit '\n')) .eps)))]) .eps, (parseAll_iff _ _).2 ⟨n + 1, ?_⟩, ?_, ?_⟩
  · rw [parse, headerText, ← List.append_nil (c!"\\n" ++ (cols.map headerCol).flatten ++ c!"(?=\\n|\\r\\n)"), hp]
    rfl
  · have ap : ∀ (a b : List Re) (t : Re), chain (a ++ b) t = chain a (chain b t) := fun a b t => List.foldr_append
    rw [ap, ap]
    show run (.seq _ (chain (row.map _) _)) = _
    refine run_seq_congr rfl ?_
    rw [run_chain (row.map _)]
    refine run_seq_congr ?_ (run_seq_eps _)
    clear hc hp h hn
    induction row with
    | nil => rfl
    | cons r row ih => exact run_seq_congr (run_cap_congr _ (run_seq_eps _)) ih
  · rw [names_chain]
    have hr : ∀ r ∈ row, names r.2 = [] := by
      clear hc hp hn
      induction h with
      | nil => simp
      | cons x _ ih =>
        intro r hr
        rcases List.mem_cons.1 hr with rfl | hr
        · exact x.2.1
        · exact ih r hr
    have : (row.map (fun r => Re.cap r.1 (.seq r.2 .eps))).flatMap names = row.map Prod.fst := by
      clear hc hp h hn
      induction row with
      | nil => rfl
      | cons r row ih =>
        rw [List.map_cons, List.flatMap_cons, ih (fun x hx => hr x (by simp [hx]))]
        simp [names, hr r (by simp)]
    simp only [List.flatMap_append, this]
    simp [names]

theorem headings_ne (s : Str) : ∀ h ∈ headings s, h ≠ [] := by
  have key : ∀ (s cur : Str) (sp : Bool), (sp = true → cur ≠ []) → ∀ h ∈ cutHeadings cur sp s, h ≠ [] := by
    intro s
    induction s with
    | nil =>
      intro cur sp _ h hh
      rw [cutHeadings] at hh
      split at hh
      · cases hh
      · next hc => rw [List.mem_singleton.1 hh]; exact hc
    | cons c s ih =>
      intro cur sp hsp h hh
      rw [cutHeadings] at hh
      split at hh
      · split at hh
        · exact ih _ _ (by simp) h hh
        · exact ih _ _ (by simp) h hh
      · split at hh
        · next hs =>
          rcases List.mem_cons.1 hh with rfl | hh
          · exact hsp hs
          · exact ih _ _ (by simp) h hh
        · exact ih _ _ (by simp) h hh
  exact key s [] false (by simp)

theorem groupNames_ok (ns : List Str) (h : groupNamesOk ns = true) : ns.Nodup ∧ ∀ n ∈ ns, nameOk n = true := by
  unfold groupNamesOk at h
  rw [Bool.and_eq_true, decide_eq_true_eq, List.all_eq_true] at h
  refine ⟨h.1, fun n hn => ?_⟩
  have := h.2 n hn
  cases n with
  | nil => exact this
  | cons c cs => exact this

theorem groupNames_iff (ns : List Str) : groupNamesOk ns = true ↔ ns.Nodup ∧ ∀ n ∈ ns, nameOk n = true := by
  refine ⟨groupNames_ok ns, fun ⟨h1, h2⟩ => ?_⟩
  unfold groupNamesOk
  rw [Bool.and_eq_true, decide_eq_true_eq, List.all_eq_true]
  refine ⟨h1, fun n hn => ?_⟩
  have := h2 n hn
  cases n with
  | nil => exact this
  | cons c cs => exact this

theorem header_compile {cols : List (Str × Str)} {row : List (Str × Re)} (h : Cols cols row) (hn : ∀ r ∈ row, nameOk r.1 = true)
    (hd : (row.map Prod.fst).Nodup) : ∃ r, compile (headerText cols) = some r ∧ ∀ text, finditer r text = finditer (headerRe row) text := by
  obtain ⟨T, h1, h2, h3⟩ := header_parse h hn
  refine ⟨T, ?_, run_finditer h2⟩
  unfold compile
  rw [h1]
  dsimp only
  rw [if_pos (by rw [h3]; exact hd)]

theorem loadHeaders_text (ctx : LoadCtx) (dflt : Val) (l content : Str) (attrs : List FnCall) (d d' : Dict Key Val) (rx : LineRx)
    (h : loadHeaders ctx dflt l content attrs d = .ok (some rx, d')) :
    ∃ t r, headersText l attrs = .ok t ∧ compile t = some r ∧ ∀ text, finditer r text = finditer rx.re text := by
  unfold loadHeaders at h
  obtain ⟨⟨vd, d1, skip⟩, h1, h⟩ := (bind_ok_iff _ _ _).1 h
  dsimp only at h
  split at h
  · cases h
  · obtain ⟨columns, h2, h⟩ := (bind_ok_iff _ _ _).1 h
    cases hh : headings (rstrip (textBefore (elems l))) with
    | nil => rw [hh] at h; cases h
    | cons x hs =>
      rw [hh] at h
      dsimp only at h
      obtain ⟨row, h3, h⟩ := (bind_ok_iff _ _ _).1 h
      obtain ⟨⟨vs, d2⟩, h4, h⟩ := (bind_ok_iff _ _ _).1 h
      dsimp only at h
      split at h
      · next hg =>
        cases h
        have hne : ∀ y ∈ (List.replicate (headingIndent (rstrip (textBefore (elems l)))) ' ' ++ x) :: hs, y ≠ [] := by
          have := headings_ne (rstrip (textBefore (elems l)))
          rw [hh] at this
          intro y hy
          rcases List.mem_cons.1 hy with rfl | hy
          · intro e
            exact this x (by simp) (List.append_eq_nil_iff.1 e).2
          · exact this y (by simp [hy])
        obtain ⟨cols, h5, h6⟩ := headerCols_rel _ hne _ _ h3
        obtain ⟨g1, g2⟩ := groupNames_ok _ hg
        obtain ⟨r, hr, hf⟩ := header_compile h6 (fun r hr => g2 _ (List.mem_map_of_mem hr)) g1
        refine ⟨_, r, ?_, hr, hf⟩
        unfold headersText
        dsimp only
        rw [h2, ok_bind, hh]
        dsimp only
        rw [h5, ok_bind]
        rfl
      · cases h

end TTP
