import Verif.Proofs.XmlText5
import Verif.Spec.Plain
/-!
# XML texts: elements that are read are proper; texts without tags
-/

namespace TTP.XmlText
open Py Spec

/-! ## Elements that are read -/

theorem unix_chars {s t : Str} (h : UnixLines s t) (hs : ∀ c ∈ s, XChar c) : ∀ c ∈ t, XChar c := by
  induction h with
  | nil => exact fun c hc => by cases hc
  | crlf _ ih =>
    intro c hc
    rcases List.mem_cons.1 hc with rfl | hc
    · exact Or.inr (Or.inl rfl)
    · exact ih (fun d hd => hs d (by simp [hd])) c hc
  | cr _ _ ih =>
    intro c hc
    rcases List.mem_cons.1 hc with rfl | hc
    · exact Or.inr (Or.inl rfl)
    · exact ih (fun d hd => hs d (by simp [hd])) c hc
  | other d _ _ ih =>
    intro c hc
    rcases List.mem_cons.1 hc with rfl | hc
    · exact hs _ (by simp)
    · exact ih (fun d hd => hs d (by simp [hd])) c hc

theorem ref_char {r : Str} {c : Char} (h : XRef r c) : XChar c := by
  cases h with
  | named h =>
    have : ∀ p ∈ xmlNames, isChar p.2 = true := by decide
    exact (isChar_iff _).1 (this _ h)
  | decimal _ _ _ h => exact h
  | hex _ h => exact h

theorem value_chars {q : Char} {t v : Str} (h : XValue q t v) (ht : ∀ c ∈ t, XChar c) : ∀ c ∈ v, XChar c := by
  induction h with
  | nil => exact fun c hc => by cases hc
  | blank d _ _ ih =>
    intro c hc
    rcases List.mem_cons.1 hc with rfl | hc
    · exact (isChar_iff _).1 (by decide)
    · exact ih (fun d hd => ht d (by simp [hd])) c hc
  | plain d _ _ _ _ _ ih =>
    intro c hc
    rcases List.mem_cons.1 hc with rfl | hc
    · exact ht _ (by simp)
    · exact ih (fun d hd => ht d (by simp [hd])) c hc
  | ref hr _ ih =>
    intro c hc
    rcases List.mem_cons.1 hc with rfl | hc
    · exact ref_char hr
    · exact ih (fun d hd => ht d (by simp [hd])) c hc

theorem attrs_proper {t : Str} {as : List (Str × Str)} (h : XAttrs t as) (ht : ∀ c ∈ t, XChar c) : ∀ p ∈ as, XName p.1 ∧ ∀ c ∈ p.2, XChar c := by
  induction h with
  | nil => exact fun c hc => by cases hc
  | cons _ _ hn _ _ _ hv _ ih =>
    intro p hp
    rcases List.mem_cons.1 hp with rfl | hp
    · exact ⟨hn, value_chars hv (fun c hc => ht c (by simp [hc]))⟩
    · exact ih (fun c hc => ht c (by simp [hc])) p hp

theorem someText_proper {s : Str} (h : ∀ c ∈ s, XChar c) : ProperText (someText s) := by
  unfold someText
  split
  · exact ⟨by simp, by simp⟩
  · rename_i hne
    exact ⟨by simpa using hne, by rintro u e; cases e; exact h⟩

theorem tag_proper {t n : Str} {a : List (Str × Str)} (h : XTag t n a) (ht : ∀ c ∈ t, XChar c) :
    XName n ∧ (∀ p ∈ a, XName p.1 ∧ ∀ c ∈ p.2, XChar c) ∧ (a.map Prod.fst).Nodup ∧ c!"xmlns" ∉ a.map Prod.fst := by
  cases h with
  | mk hn ha hnd hx _ => exact ⟨hn, attrs_proper ha (fun c hc => ht c (by simp [hc])), hnd, hx⟩

mutual
theorem element_proper : ∀ {t n : Str} {a : List (Str × Str)} {v : Str} {cs : List Xml}, XElement t n a v cs → (∀ c ∈ t, XChar c) →
    ∀ {tl : Str}, (∀ c ∈ tl, XChar c) → ProperXml (.mk n a (someText v) cs (someText tl))
  | _, _, _, _, _, .empty ht, hc, tl, htl => by
    obtain ⟨h1, h2, h3, h4⟩ := tag_proper ht (fun c h => hc c (by simp [h]))
    exact .mk h1 h2 h3 h4 (someText_proper (by simp)) .nil (someText_proper htl)
  | _, _, _, _, _, .full ht hs _, hc, tl, htl => by
    obtain ⟨h1, h2, h3, h4⟩ := tag_proper ht (fun c h => hc c (by simp [h]))
    obtain ⟨h5, h6⟩ := content_proper hs (fun c h => hc c (by simp [h]))
    exact .mk h1 h2 h3 h4 (someText_proper h5) h6 (someText_proper htl)
theorem content_proper : ∀ {s v : Str} {cs : List Xml}, XContent s v cs → (∀ c ∈ s, XChar c) → (∀ c ∈ v, XChar c) ∧ ProperXmls cs
  | _, _, _, .nil, _ => ⟨by simp, .nil⟩
  | _, _, _, .char c _ _ _ h, hc => by
    obtain ⟨h1, h2⟩ := content_proper h (fun d hd => hc d (by simp [hd]))
    refine ⟨?_, h2⟩
    intro d hd
    rcases List.mem_cons.1 hd with rfl | hd
    · exact hc _ (by simp)
    · exact h1 d hd
  | _, _, _, .ref hr h, hc => by
    obtain ⟨h1, h2⟩ := content_proper h (fun d hd => hc d (by simp [hd]))
    refine ⟨?_, h2⟩
    intro d hd
    rcases List.mem_cons.1 hd with rfl | hd
    · exact ref_char hr
    · exact h1 d hd
  | _, _, _, .cdata _ h, hc => by
    obtain ⟨h1, h2⟩ := content_proper h (fun d hd => hc d (by simp [hd]))
    refine ⟨?_, h2⟩
    intro d hd
    rcases List.mem_append.1 hd with hd | hd
    · exact hc _ (by simp [hd])
    · exact h1 d hd
  | _, _, _, .note _ h, hc => content_proper h (fun d hd => hc d (by simp [hd]))
  | _, _, _, .element he h, hc => by
    obtain ⟨h1, h2⟩ := content_proper h (fun d hd => hc d (by simp [hd]))
    exact ⟨by simp, .cons (element_proper he (fun d hd => hc d (by simp [hd])) h1) h2⟩
end

/-- what is read can be written, and nothing follows it -/
theorem document_proper {s : Str} {x : Xml} (h : XDocument s x) : ProperXml x ∧ x.tail = none := by
  cases h with
  | @mk bom s a t b n v at_ cs h1 _ h3 _ he _ =>
    have hc := unix_chars h3 (fun c hc => h1 c (by simp [hc]))
    exact ⟨element_proper he (fun c h => hc c (by simp [h])) (tl := []) (by simp), rfl⟩

/-! ## Texts without tags -/

theorem name_group : XName c!"group" := ⟨'g', c!"roup", rfl, (nameStart_iff _).1 (by decide), fun d hd => (nameChar_iff d).1 (by revert d; decide)⟩
theorem name_template : XName c!"template" := ⟨'t', c!"emplate", rfl, (nameStart_iff _).1 (by decide), fun d hd => (nameChar_iff d).1 (by revert d; decide)⟩
theorem name_name : XName c!"name" := ⟨'n', c!"ame", rfl, (nameStart_iff _).1 (by decide), fun d hd => (nameChar_iff d).1 (by revert d; decide)⟩

theorem content_append {s v : Str} (h : XContent s v []) {r u : Str} {cs : List Xml} (hr : XContent r u cs) (hg : Good r) : XContent (s ++ r) (v ++ u) cs := by
  have key : ∀ {s v : Str} {ks : List Xml}, XContent s v ks → ks = [] → XContent (s ++ r) (v ++ u) cs := by
    intro s
    induction hn : s.length using Nat.strongRecOn generalizing s with
    | ind k ih =>
      intro v ks h hk
      cases h with
      | nil => exact hr
      | @char c s v ks h1 h2 h3 h4 =>
        refine .char c h1 h2 ?_ (ih s.length (by simp at hn; omega) rfl h4 hk)
        intro w e
        match s, e with
        | [], e => cases e; exact hg.2 w rfl
        | [d], e => exact hg.1 w (List.cons.inj (List.cons.inj e).2).2
        | d :: d' :: s', e =>
          simp only [List.cons_append, List.cons.injEq] at e
          obtain ⟨rfl, rfl, rfl, _⟩ := e
          exact h3 s' rfl
      | @ref q s v c ks h1 h2 =>
        rw [List.append_assoc]
        refine .ref h1 (ih s.length ?_ rfl h2 hk)
        obtain ⟨b, rfl, _⟩ := (xref_iff _ _).1 h1
        simp at hn; omega
      | @cdata t s v ks h1 h2 =>
        have e : c!"<![CDATA[" ++ (t ++ (c!"]]>" ++ s)) ++ r = c!"<![CDATA[" ++ (t ++ (c!"]]>" ++ (s ++ r))) := by simp
        rw [e, List.append_assoc]
        exact .cdata h1 (ih s.length (by simp at hn; omega) rfl h2 hk)
      | @note t s v ks h1 h2 =>
        rw [List.append_assoc]
        refine .note h1 (ih s.length ?_ rfl h2 hk)
        rcases (xnote_iff _).1 h1 with ⟨q, rfl, _⟩ | ⟨q, rfl, _⟩ <;> (simp at hn; omega)
      | element _ _ => cases hk
  exact key h rfl

theorem content_nl : XContent ['\n'] ['\n'] [] := .char '\n' (by decide) (by decide) (by simp) .nil

/-- content between line ends -/
theorem content_lines {s v : Str} (h : XContent s v []) : XContent (c!"\n" ++ s ++ c!"\n") (c!"\n" ++ v ++ c!"\n") [] := by
  have := content_append h content_nl (good_cons (by decide) (by decide))
  rw [List.append_assoc, List.append_assoc]
  exact .char '\n' (by decide) (by decide) (by simp) this

/-- a document without carriage returns that begins with its element -/
theorem parse_doc {t n v : Str} {a : List (Str × Str)} {cs : List Xml} (h : XElement t n a v cs) (hc : ∀ c ∈ t, Fine c) :
    parse t = some (.mk n a (someText v) cs none) := by
  rw [parse_iff]
  have := XDocument.mk (bom := []) (s := t) (a := []) (t := t) (b := []) (fun c h => (hc c h).1) (Or.inl rfl) (by
      rw [List.nil_append, List.append_nil]
      exact unix_self (fun h => (hc _ h).2 rfl)) .nil h .nil
  exact this

theorem fine_append {s t : Str} (hs : ∀ c ∈ s, Fine c) (ht : ∀ c ∈ t, Fine c) : ∀ c ∈ s ++ t, Fine c := by
  intro c hc
  rcases List.mem_append.1 hc with h | h
  · exact hs c h
  · exact ht c h

theorem fine_nl : Fine '\n' := ⟨Or.inr (Or.inl rfl), by decide⟩

theorem fine_lits {s : Str} (h : ∀ c ∈ s, c = '\n' ∨ (32 ≤ c.toNat ∧ c.toNat < 128)) : ∀ c ∈ s, Fine c := by
  intro c hc
  rcases h c hc with rfl | h
  · exact fine_nl
  · exact fine_ascii h.1 h.2

theorem tag_plain {n : Str} (h : XName n) : XTag n n [] := by
  have := XTag.mk h .nil (by simp) (by simp) (w := []) blank_nil
  simpa using this

/-- a template element around content -/
theorem parse_template {s v : Str} {cs : List Xml} (h : XContent (c!"\n" ++ s ++ c!"\n") v cs) (hc : ∀ c ∈ s, Fine c) :
    parse (c!"<template>\n" ++ s ++ c!"\n</template>") = some (.mk c!"template" [] (someText v) cs none) := by
  have := XElement.full (tag_plain name_template) h (w := []) blank_nil
  have e : c!"<template>\n" ++ s ++ c!"\n</template>" =
      '<' :: (c!"template" ++ ('>' :: ((c!"\n" ++ s ++ c!"\n") ++ (c!"</" ++ (c!"template" ++ ([] ++ ['>'])))))) := by simp
  rw [e]
  refine parse_doc this ?_
  rw [← e]
  exact fine_append (fine_append (fine_lits (by decide)) hc) (fine_lits (by decide))

theorem group_attrs : XAttrs c!" name=\"_anonymous_\"" [(c!"name", c!"_anonymous_")] := by
  have hv := attr_value (ascii := false) (u := c!"_anonymous_") (fun c hc => (isChar_iff c).1 (by revert c; decide))
  have := XAttrs.cons (w := [' ']) (n := c!"name") (a := []) (b := []) (q := '"') (by unfold XBlank; simp) (by simp) name_name blank_nil blank_nil (Or.inl rfl) hv .nil
  exact this

/-- the anonymous group around content -/
theorem parse_group {s v : Str} {cs : List Xml} (h : XContent (c!"\n" ++ s ++ c!"\n") v cs) (hc : ∀ c ∈ s, Fine c) :
    parse (c!"<template><group name=\"_anonymous_\">\n" ++ s ++ c!"\n</group></template>") =
      some (.mk c!"template" [] none [.mk c!"group" [(c!"name", c!"_anonymous_")] (someText v) cs none] none) := by
  have htag := XTag.mk name_group group_attrs (by simp) (by simp) (w := []) blank_nil
  have hg := XElement.full htag h (w := []) blank_nil
  have ht := XElement.full (tag_plain name_template) (XContent.element hg .nil) (w := []) blank_nil
  have e : c!"<template><group name=\"_anonymous_\">\n" ++ s ++ c!"\n</group></template>" =
      '<' :: (c!"template" ++ ('>' :: (('<' :: ((c!"group" ++ (c!" name=\"_anonymous_\"" ++ [])) ++ ('>' :: ((c!"\n" ++ s ++ c!"\n") ++ (c!"</" ++ (c!"group" ++ ([] ++ ['>']))))))
        ++ []) ++ (c!"</" ++ (c!"template" ++ ([] ++ ['>'])))))) := by simp
  rw [e]
  refine parse_doc ht ?_
  rw [← e]
  exact fine_append (fine_append (fine_lits (by decide)) hc) (fine_lits (by decide))

theorem unix_mem {s t : Str} (h : UnixLines s t) {c : Char} (hc : c ∈ t) : c ∈ s ∨ c = '\n' := by
  induction h with
  | nil => cases hc
  | crlf _ ih =>
    rcases List.mem_cons.1 hc with rfl | hc
    · exact Or.inr rfl
    · rcases ih hc with h | h
      · exact Or.inl (by simp [h])
      · exact Or.inr h
  | cr _ _ ih =>
    rcases List.mem_cons.1 hc with rfl | hc
    · exact Or.inr rfl
    · rcases ih hc with h | h
      · exact Or.inl (by simp [h])
      · exact Or.inr h
  | other d _ _ ih =>
    rcases List.mem_cons.1 hc with rfl | hc
    · exact Or.inl (by simp)
    · rcases ih hc with h | h
      · exact Or.inl (by simp [h])
      · exact Or.inr h

/-- a text without `<` is no document -/
theorem parse_none_of_text {s : Str} (h : '<' ∉ s) : parse s = none := by
  cases e : parse s with
  | none => rfl
  | some x =>
    exfalso
    cases (parse_iff s x).1 e with
    | @mk bom s a t b n v at_ cs h1 _ h3 _ he _ =>
      have : '<' ∈ t := by cases he <;> simp
      rcases unix_mem h3 (c := '<') (by simp [this]) with h4 | h4
      · exact h (by simp [h4])
      · revert h4; decide

/-- a text without tags that is written for `u` -/
theorem reads_content {t u : Str} (hn : '<' ∉ t) (h : XContent t u []) (hc : ∀ c ∈ t, Fine c) : ReadsPlain parse t u := by
  have h1 := content_lines h
  have hne : someText (c!"\n" ++ u ++ c!"\n") = some (c!"\n" ++ u ++ c!"\n") := by
    unfold someText
    rw [if_neg]
    simp
  refine ⟨parse_none_of_text hn, ?_, ?_⟩
  · rw [parse_template h1 hc, hne]
  · rw [parse_group h1 hc, hne]

theorem content_plain {t : Str} (h1 : '<' ∉ t) (h2 : '&' ∉ t) (h3 : Lacks c!"]]>" t) : XContent t t [] := by
  induction t with
  | nil => exact .nil
  | cons c t ih =>
    refine .char c (by rintro rfl; simp at h1) (by rintro rfl; simp at h2) ?_ (ih (by intro h; exact h1 (by simp [h])) (by intro h; exact h2 (by simp [h])) ?_)
    · intro r e
      exact h3 [] r (by simpa using e)
    · intro a b e
      exact h3 (c :: a) b (by simp [e])

/-! ## Texts without tags that cannot be read -/

theorem tok_char {r : Str} {ts : List Tok} (h : Toks r ts) : ∀ {t s : Str}, r = t ++ '<' :: s → '<' ∉ t →
    ∃ u ts', XContent t u [] ∧ Toks ('<' :: s) ts' := by
  induction h with
  | nil => intro t s e; simp at e
  | @cons p r tok ts hp hf hr ih =>
    intro t s e hn
    cases t with
    | nil => exact ⟨[], tok :: ts, .nil, by rw [List.nil_append] at e; rw [← e]; exact .cons hp hf hr⟩
    | cons d t =>
      cases hp with
      | @char c h1 h2 =>
        simp only [List.cons_append, List.nil_append, List.cons.injEq] at e
        obtain ⟨rfl, rfl⟩ := e
        obtain ⟨u, ts', h3, h4⟩ := ih rfl (by intro h; exact hn (by simp [h]))
        refine ⟨c :: u, ts', .char c h1 h2 ?_ h3, h4⟩
        intro q e
        cases e
        exact hf rfl (q ++ '<' :: s) (by simp)
      | @ref p c h1 =>
        have hno : '<' ∉ p := by
          obtain ⟨b, rfl, hb⟩ := (xref_iff _ _).1 h1
          intro h
          rcases List.mem_cons.1 h with h | h
          · revert h; decide
          · rcases List.mem_append.1 h with h | h
            · have := body_ref hb '<' h
              revert this; decide
            · revert h; decide
        rcases List.append_eq_append_iff.1 e with ⟨w, h2, h3⟩ | ⟨w, h2, h3⟩
        · obtain ⟨u, ts', h4, h5⟩ := ih h3 (by intro h; exact hn (by rw [h2]; simp [h]))
          rw [h2]
          exact ⟨c :: u, ts', .ref h1 h4, h5⟩
        · cases w with
          | nil =>
            rw [List.append_nil] at h2
            rw [List.nil_append] at h3
            obtain ⟨u, ts', h4, h5⟩ := ih (t := []) h3.symm (by simp)
            refine ⟨[c], ts', ?_, h5⟩
            rw [← h2]
            have := XContent.ref h1 .nil
            simpa using this
          | cons e' w =>
            simp only [List.cons_append, List.cons.injEq] at h3
            exact absurd (by rw [h2, ← h3.1]; simp) hno
      | start _ => simp at e; exact absurd (by simp [← e.1]) hn
      | empty _ => simp at e; exact absurd (by simp [← e.1]) hn
      | close _ _ => simp at e; exact absurd (by simp [← e.1]) hn
      | cdata _ => simp at e; exact absurd (by simp [← e.1]) hn
      | note hno =>
        rcases (xnote_iff _).1 hno with ⟨q, rfl, _⟩ | ⟨q, rfl, _⟩ <;> (simp at e; exact absurd (by simp [← e.1]) hn)

theorem toks_det {s : Str} {ts ts' : List Tok} (h : Toks s ts) (h' : Toks s ts') : ts = ts' := by
  have := ((tokens_iff s ts).2 h).symm.trans ((tokens_iff s ts').2 h')
  exact Option.some.inj this

theorem toks_inv {p r : Str} {t : Tok} {ts : List Tok} (hp : TokOf p t) (hf : Follow t r) (h : Toks (p ++ r) ts) : ∃ ts', Toks r ts' := by
  have h1 := token_complete hp r hf
  have h2 := (tokens_iff _ _).2 h
  unfold tokens at h2
  rw [many_iff token_shrinks] at h2
  generalize hq : p ++ r = q at h1 h2
  cases h2 with
  | nil =>
    have := tokOf_ne hp
    simp at hq
    exact absurd hq.1 this
  | cons h3 h4 =>
    rw [h1] at h3
    cases h3
    exact ⟨_, (tokens_iff _ _).1 (by unfold tokens; exact (many_iff token_shrinks _ _).2 h4)⟩

/-- a text without `<` inside of a template element can only be read if it is content -/
theorem content_of_template {t : Str} (hn : '<' ∉ t) (hr : '\r' ∉ t) {x : Xml} (h : parse (c!"<template>\n" ++ t ++ c!"\n</template>") = some x) :
    ∃ u, XContent t u [] := by
  unfold parse at h
  split at h
  · have e1 : dropBom (c!"<template>\n" ++ t ++ c!"\n</template>") = c!"<template>\n" ++ t ++ c!"\n</template>" := dropBom_self (by decide)
    have hr' : '\r' ∉ c!"<template>\n" ++ t ++ c!"\n</template>" := by
      intro hm
      simp only [List.mem_append] at hm
      rcases hm with (hm | hm) | hm
      · revert hm; decide
      · exact hr hm
      · revert hm; decide
    rw [e1, (unixLines_iff _ _).2 (unix_self hr')] at h
    obtain ⟨ts, h1, -⟩ := (element_eq_some _ _).1 h
    have e2 : c!"<template>\n" ++ t ++ c!"\n</template>" = ('<' :: (c!"template" ++ ['>'])) ++ (c!"\n" ++ (t ++ (['\n'] ++ ('<' :: c!"/template>")))) := by simp
    rw [e2] at h1
    obtain ⟨ts1, h2⟩ := toks_inv (.start (tag_plain name_template)) (by intro e; cases e) h1
    obtain ⟨ts2, h3⟩ := toks_inv (p := c!"\n") (t := .char '\n') (.char (by decide) (by decide)) (by intro e; cases e) h2
    have e3 : t ++ (['\n'] ++ ('<' :: c!"/template>")) = (t ++ ['\n']) ++ '<' :: c!"/template>" := by simp
    obtain ⟨u, _, h4, _⟩ := tok_char h3 e3 (by
      intro hm
      rcases List.mem_append.1 hm with hm | hm
      · exact hn hm
      · revert hm; decide)
    -- the line end after the text can be taken away
    clear h1 h2 h3 h e1 e2 e3 hr' hr
    have key : ∀ {q v : Str} {ks : List Xml}, XContent q v ks → ∀ t : Str, q = t ++ ['\n'] → '<' ∉ t → ∃ u, XContent t u [] := by
      intro q
      induction hl : q.length using Nat.strongRecOn generalizing q with
      | ind k ih =>
        intro v ks h t e hn
        cases t with
        | nil => exact ⟨[], .nil⟩
        | cons d t =>
          cases h with
          | nil => simp at e
          | @char c s v ks h1 h2 h3 h4 =>
            simp only [List.cons_append, List.cons.injEq] at e
            obtain ⟨rfl, rfl⟩ := e
            obtain ⟨u, h5⟩ := ih (t ++ ['\n']).length (by simp at hl ⊢; omega) rfl h4 t rfl (by intro h; exact hn (by simp [h]))
            refine ⟨c :: u, .char c h1 h2 ?_ h5⟩
            intro r e
            cases e
            exact h3 (r ++ ['\n']) (by simp)
          | @ref p s v c ks h1 h2 =>
            obtain ⟨b, hpb, hb⟩ := (xref_iff _ _).1 h1
            rcases List.append_eq_append_iff.1 e with ⟨w, h3, h4⟩ | ⟨w, h3, h4⟩
            · have hlt : s.length < k := by rw [hpb] at hl; simp at hl; omega
              obtain ⟨u, h5⟩ := ih s.length hlt rfl h2 w h4 (by intro h; exact hn (by rw [h3]; simp [h]))
              rw [h3]
              exact ⟨c :: u, .ref h1 h5⟩
            · -- the reference would contain the line end
              cases w with
              | nil =>
                rw [List.append_nil] at h3
                rw [← h3]
                have := XContent.ref h1 .nil
                exact ⟨_, by simpa using this⟩
              | cons f w =>
                simp only [List.cons_append, List.cons.injEq] at h4
                obtain ⟨rfl, h4⟩ := h4
                have h5 : w = [] ∧ s = [] := by simpa using h4.symm
                obtain ⟨rfl, _⟩ := h5
                have h6 : ('&' :: b) ++ [';'] = (d :: t) ++ ['\n'] := hpb.symm.trans h3
                have h7 := (List.append_inj_right' h6 rfl)
                exact absurd h7 (by decide)
          | cdata _ _ => simp at e; exact absurd (by simp [← e.1]) hn
          | note hno _ =>
            rcases (xnote_iff _).1 hno with ⟨q, rfl, _⟩ | ⟨q, rfl, _⟩ <;> (simp at e; exact absurd (by simp [← e.1]) hn)
          | element he _ => cases he <;> (simp at e; exact absurd (by simp [← e.1]) hn)
    exact key h4 t rfl hn
  · cases h

end TTP.XmlText
