import Verif.Proofs.XmlText3
/-!
# XML texts: the reader accepts exactly the documents of the grammar
-/

namespace TTP.XmlText
open Py Spec

theorem textOpt_eq (s : Str) : textOpt s = someText s := rfl

/-! ## From the grammar to the parts -/

theorem toks_head {r : Str} {ts : List Tok} (h : Toks r ts) : ts = [] → r = [] := by
  cases h with
  | nil => exact fun _ => rfl
  | cons _ _ _ => intro e; cases e

mutual
theorem element_complete : ∀ {t n : Str} {a : List (Str × Str)} {v : Str} {cs : List Xml}, XElement t n a v cs → ∀ {r : Str} {ts : List Tok} {b b' : Build},
    Toks r ts → buildAll ts = some b → addElem b n a v cs = some b' → ∃ ts', Toks (t ++ r) ts' ∧ buildAll ts' = some b'
  | _, _, _, _, _, .empty ht, r, ts, b, b', h1, h2, h3 =>
    ⟨_, .cons (.empty ht) (by intro e; cases e) h1, by rw [buildAll, h2]; exact h3⟩
  | _, _, _, _, _, @XElement.full t n s v w a cs ht hc hw, r, ts, b, b', h1, h2, h3 => by
    obtain ⟨ts1, h4, h5⟩ : ∃ ts1, Toks (c!"</" ++ (n ++ (w ++ ['>'])) ++ r) ts1 ∧ buildAll ts1 = some ⟨⟨n, [], []⟩ :: b.open_, b.root⟩ := by
      obtain ⟨n', hn⟩ : ∃ n', XName n' ∧ n' = n := by cases ht with | mk h _ _ _ _ => exact ⟨_, h, rfl⟩
      rw [hn.2] at hn
      exact ⟨_, .cons (.close hn.1 hw) (by intro e; cases e) h1, by rw [buildAll, h2]; rfl⟩
    obtain ⟨ts2, h6, h7⟩ := content_complete hc h4 h5 ⟨_, rfl⟩
    refine ⟨.start n a :: ts2, ?_, ?_⟩
    · have e : '<' :: (t ++ ('>' :: (s ++ (c!"</" ++ (n ++ (w ++ ['>'])))))) ++ r = '<' :: (t ++ ['>']) ++ (s ++ (c!"</" ++ (n ++ (w ++ ['>'])) ++ r)) := by
        simp
      rw [e]
      exact .cons (.start ht) (by intro e; cases e) h6
    · rw [buildAll, h7, Option.bind_some, build]
      dsimp only
      rw [if_pos rfl]
      exact h3
theorem content_complete : ∀ {s v : Str} {cs : List Xml}, XContent s v cs → ∀ {r : Str} {ts : List Tok} {n : Str} {fs : List Frame} {root : Option Xml},
    Toks r ts → buildAll ts = some ⟨⟨n, [], []⟩ :: fs, root⟩ → (∃ u, r = '<' :: u) →
      ∃ ts', Toks (s ++ r) ts' ∧ buildAll ts' = some ⟨⟨n, v, cs⟩ :: fs, root⟩
  | _, _, _, .nil, _, ts, _, _, _, h1, h2, _ => ⟨ts, h1, h2⟩
  | _, _, _, @XContent.char c s v cs hc1 hc2 hf hc, r, ts, n, fs, root, h1, h2, h3 => by
    obtain ⟨ts1, h4, h5⟩ := content_complete hc h1 h2 h3
    refine ⟨.char c :: ts1, .cons (p := [c]) (.char hc1 hc2) ?_ h4, ?_⟩
    · intro e u hu
      cases e
      obtain ⟨q, rfl⟩ := h3
      match s, hu with
      | [], hu => simp at hu
      | [d], hu => simp at hu
      | d :: d' :: s', hu =>
        have h1 : d = ']' := (List.cons.inj hu).1
        have h2 : d' = '>' := (List.cons.inj (List.cons.inj hu).2).1
        subst h1 h2
        exact hf s' rfl
    · rw [buildAll, h5, Option.bind_some, build]
      dsimp only
      rw [if_neg (by simp)]
      rfl
  | _, _, _, @XContent.ref q s v c cs hr hc, r, ts, n, fs, root, h1, h2, h3 => by
    obtain ⟨ts1, h4, h5⟩ := content_complete hc h1 h2 h3
    refine ⟨.data [c] :: ts1, ?_, by rw [buildAll, h5]; rfl⟩
    rw [List.append_assoc]
    exact .cons (.ref hr) (by intro e; cases e) h4
  | _, _, _, @XContent.cdata t s v cs ht hc, r, ts, n, fs, root, h1, h2, h3 => by
    obtain ⟨ts1, h4, h5⟩ := content_complete hc h1 h2 h3
    refine ⟨.data t :: ts1, ?_, by rw [buildAll, h5]; rfl⟩
    have e : c!"<![CDATA[" ++ (t ++ (c!"]]>" ++ s)) ++ r = (c!"<![CDATA[" ++ (t ++ c!"]]>")) ++ (s ++ r) := by simp
    rw [e]
    exact .cons (.cdata ht) (by intro e; cases e) h4
  | _, _, _, @XContent.note t s v cs ht hc, r, ts, n, fs, root, h1, h2, h3 => by
    obtain ⟨ts1, h4, h5⟩ := content_complete hc h1 h2 h3
    refine ⟨.skip :: ts1, ?_, by rw [buildAll, h5]; rfl⟩
    rw [List.append_assoc]
    exact .cons (.note ht) (by intro e; cases e) h4
  | _, _, _, @XContent.element t s m v u a ks cs he hc, r, ts, n, fs, root, h1, h2, h3 => by
    obtain ⟨ts1, h4, h5⟩ := content_complete hc h1 h2 h3
    rw [List.append_assoc]
    exact element_complete he h4 h5 rfl
end

theorem misc_complete {s : Str} (h : XMisc s) {r : Str} {ts : List Tok} {root : Option Xml} (h1 : Toks r ts) (h2 : buildAll ts = some ⟨[], root⟩) :
    ∃ ts', Toks (s ++ r) ts' ∧ buildAll ts' = some ⟨[], root⟩ := by
  induction h with
  | nil => exact ⟨ts, h1, h2⟩
  | @blank c s hb _ ih =>
    obtain ⟨ts1, h3, h4⟩ := ih
    have hw := (isWs_or c).1 ((isWs_iff c).2 hb)
    refine ⟨.char c :: ts1, .cons (p := [c]) (.char ?_ ?_) ?_ h3, ?_⟩
    · rcases hw with rfl | rfl | rfl <;> decide
    · rcases hw with rfl | rfl | rfl <;> decide
    · intro e; cases e; exfalso; revert hw; decide
    · rw [buildAll, h4, Option.bind_some, build]
      dsimp only
      rw [if_pos ⟨rfl, (isWs_iff c).2 hb⟩]
  | @note t s hn _ ih =>
    obtain ⟨ts1, h3, h4⟩ := ih
    refine ⟨.skip :: ts1, ?_, by rw [buildAll, h4]; rfl⟩
    rw [List.append_assoc]
    exact .cons (.note hn) (by intro e; cases e) h3

theorem element_eq_some (s : Str) (x : Xml) : element s = some x ↔ ∃ ts, Toks s ts ∧ buildAll ts = some ⟨[], some x⟩ := by
  unfold element
  constructor
  · intro h
    split at h
    · rename_i y e
      cases h
      rw [Option.bind_eq_some_iff] at e
      obtain ⟨ts, h1, h2⟩ := e
      exact ⟨ts, (tokens_iff s ts).1 h1, h2⟩
    · cases h
  · rintro ⟨ts, h1, h2⟩
    rw [(tokens_iff s ts).2 h1, Option.bind_some, h2]

theorem doc_complete {a t b n v : Str} {at_ : List (Str × Str)} {cs : List Xml} (ha : XMisc a) (ht : XElement t n at_ v cs) (hb : XMisc b) :
    element (a ++ (t ++ b)) = some (.mk n at_ (someText v) cs none) := by
  rw [element_eq_some]
  obtain ⟨ts1, h1, h2⟩ := misc_complete hb (r := []) (ts := []) (root := none) .nil rfl
  rw [List.append_nil] at h1
  obtain ⟨ts2, h3, h4⟩ := element_complete ht h1 h2 (b' := ⟨[], some (.mk n at_ (someText v) cs none)⟩) rfl
  exact misc_complete ha h3 h4

/-! ## From the parts to the grammar -/

/-- what is left of a text after a point inside of elements -/
inductive Pending : Str → Build → Prop
  | doc {s : Str} : XMisc s → Pending s ⟨[], none⟩
  | root {a t b n v : Str} {at_ : List (Str × Str)} {cs : List Xml} : XMisc a → XElement t n at_ v cs → XMisc b →
      Pending (a ++ (t ++ b)) ⟨[], some (.mk n at_ (someText v) cs none)⟩
  | inside {s n v w r : Str} {cs : List Xml} {fs : List Frame} {root : Option Xml} : XContent s v cs → XName n → XBlank w → Pending r ⟨fs, root⟩ →
      Pending (s ++ (c!"</" ++ (n ++ (w ++ ('>' :: r))))) ⟨⟨n, v, cs⟩ :: fs, root⟩

theorem content_head {s v : Str} {cs : List Xml} (h : XContent s v cs) {u : Str} (hu : s = ']' :: ']' :: '>' :: u) : False := by
  cases h with
  | nil => cases hu
  | char c h1 h2 h3 h4 => exact h3 u hu
  | ref hr hc =>
    obtain ⟨b, rfl, _⟩ := (xref_iff _ _).1 hr
    simp at hu
  | cdata _ _ => simp at hu
  | note hn _ => rcases (xnote_iff _).1 hn with ⟨q, rfl, _⟩ | ⟨q, rfl, _⟩ <;> simp at hu
  | element he _ => cases he <;> simp at hu

theorem addElem_pending {t n v : Str} {a : List (Str × Str)} {cs : List Xml} (he : XElement t n a v cs) {s : Str} {b b' : Build} (hp : Pending s b)
    (hb : addElem b n a v cs = some b') : Pending (t ++ s) b' := by
  cases hp with
  | doc hm =>
    simp [addElem, textOpt_eq] at hb
    subst hb
    exact .root (a := []) .nil he hm
  | root _ _ _ => simp [addElem] at hb
  | @inside s m u w r ks fs root hc hm hw hr =>
    simp [addElem, textOpt_eq] at hb
    subst hb
    rw [← List.append_assoc]
    exact .inside (.element he hc) hm hw hr

theorem build_pending {p s : Str} {t : Tok} (ht : TokOf p t) (hf : Follow t s) {b b' : Build} (hp : Pending s b) (hb : build t b = some b') :
    Pending (p ++ s) b' := by
  cases ht with
  | @start u n a hu =>
    rw [build] at hb
    cases hp with
    | doc _ => cases hb
    | root _ _ _ => cases hb
    | @inside s m v w r ks fs root hc hm hw hr =>
      dsimp only at hb
      split at hb
      · rename_i e
        subst e
        have := addElem_pending (.full hu hc hw) hr hb
        have e : '<' :: (u ++ ['>']) ++ (s ++ (c!"</" ++ (m ++ (w ++ '>' :: r)))) = '<' :: (u ++ ('>' :: (s ++ (c!"</" ++ (m ++ (w ++ ['>'])))))) ++ r := by simp
        rw [e]
        exact this
      · cases hb
  | empty hu =>
    rw [build] at hb
    exact addElem_pending (.empty hu) hp hb
  | @close n w hn hw =>
    rw [build] at hb
    cases hb
    have := Pending.inside (s := []) .nil hn hw hp
    have e : c!"</" ++ (n ++ (w ++ ['>'])) ++ s = [] ++ (c!"</" ++ (n ++ (w ++ ('>' :: s)))) := by simp
    rw [e]
    exact this
  | @char c h1 h2 =>
    rw [build] at hb
    cases hp with
    | doc hm =>
      split at hb
      · rename_i hw
        cases hb
        exact .doc (.blank c ((isWs_iff c).1 hw.2) hm)
      · simp [addText] at hb
    | root ha he hm =>
      split at hb
      · rename_i hw
        cases hb
        rw [List.singleton_append, ← List.cons_append]
        exact .root (.blank c ((isWs_iff c).1 hw.2) ha) he hm
      · simp [addText] at hb
    | @inside s m v w r ks fs root hc hm hw hr =>
      rw [if_neg (by simp)] at hb
      cases hb
      refine Pending.inside (.char c h1 h2 ?_ hc) hm hw hr
      intro u hu
      cases hu
      exact hf rfl (u ++ (c!"</" ++ (m ++ (w ++ '>' :: r)))) (by simp)
  | ref hr =>
    rw [build] at hb
    cases hp with
    | doc _ => cases hb
    | root _ _ _ => cases hb
    | inside hc hm hw hr' =>
      cases hb
      rw [← List.append_assoc]
      exact Pending.inside (.ref hr hc) hm hw hr'
  | @cdata t hl =>
    rw [build] at hb
    cases hp with
    | doc _ => cases hb
    | root _ _ _ => cases hb
    | @inside s m v w r ks fs root hc hm hw hr =>
      cases hb
      have := Pending.inside (.cdata hl hc) hm hw hr
      have e : c!"<![CDATA[" ++ (t ++ c!"]]>") ++ (s ++ (c!"</" ++ (m ++ (w ++ '>' :: r)))) =
          c!"<![CDATA[" ++ (t ++ (c!"]]>" ++ s)) ++ (c!"</" ++ (m ++ (w ++ '>' :: r))) := by simp
      rw [e]
      exact this
  | note hn =>
    rw [build] at hb
    cases hb
    cases hp with
    | doc hm => exact .doc (.note hn hm)
    | root ha he hm => rw [← List.append_assoc]; exact .root (.note hn ha) he hm
    | inside hc hm hw hr => rw [← List.append_assoc]; exact .inside (.note hn hc) hm hw hr

theorem pending_of {s : Str} {ts : List Tok} (h : Toks s ts) : ∀ {b : Build}, buildAll ts = some b → Pending s b := by
  induction h with
  | nil => intro b hb; cases hb; exact .doc .nil
  | cons h1 h2 _ ih =>
    intro b hb
    rw [buildAll, Option.bind_eq_some_iff] at hb
    obtain ⟨b0, h4, h5⟩ := hb
    exact build_pending h1 h2 (ih h4) h5

theorem element_iff (s : Str) (x : Xml) : element s = some x ↔
    ∃ a t b n at_ v cs, s = a ++ (t ++ b) ∧ x = .mk n at_ (someText v) cs none ∧ XMisc a ∧ XElement t n at_ v cs ∧ XMisc b := by
  constructor
  · intro h
    obtain ⟨ts, h1, h2⟩ := (element_eq_some s x).1 h
    cases pending_of h1 h2 with
    | root ha he hb => exact ⟨_, _, _, _, _, _, _, rfl, rfl, ha, he, hb⟩
  · rintro ⟨a, t, b, n, at_, v, cs, rfl, rfl, ha, he, hb⟩
    exact doc_complete ha he hb

/-! ## Documents -/

theorem unixLines_iff (s t : Str) : unixLines s = t ↔ UnixLines s t := by
  constructor
  · rintro rfl
    fun_induction unixLines s with
    | case1 => exact .nil
    | case2 => exact .cr (by simp) .nil
    | case3 s ih => exact .crlf ih
    | case4 d s h ih => exact .cr (by intro r e; cases e; exact h rfl) ih
    | case5 c s h ih => exact .other c h ih
  · intro h
    induction h with
    | nil => rfl
    | crlf _ ih => rw [unixLines.eq_def]; simp [ih]
    | @cr s t h1 _ ih =>
      cases s with
      | nil => rw [← ih]; rfl
      | cons d s =>
        have hd : d ≠ '\n' := by rintro rfl; exact h1 s rfl
        rw [unixLines.eq_def]
        simp [hd, ih]
    | other c h1 _ ih => rw [unixLines.eq_def]; simp [h1, ih]

theorem bom_iff (s t : Str) (h : dropBom s = t) : ∃ bom, s = bom ++ t ∧ (bom = [] ∨ ∃ c, bom = [c] ∧ c.toNat = 0xFEFF) := by
  subst h
  cases s with
  | nil => exact ⟨[], rfl, Or.inl rfl⟩
  | cons c s =>
    rw [dropBom]
    split
    · rename_i h; exact ⟨[c], rfl, Or.inr ⟨c, rfl, h⟩⟩
    · exact ⟨[], rfl, Or.inl rfl⟩

/-- a text that begins with an element does not begin with a byte order mark -/
theorem dropBom_self {c : Char} {s : Str} (h : c.toNat ≠ 0xFEFF) : dropBom (c :: s) = c :: s := by
  rw [dropBom, if_neg h]

theorem misc_first {a t b n v : Str} {at_ : List (Str × Str)} {cs : List Xml} (ha : XMisc a) (he : XElement t n at_ v cs) :
    ∃ c r, a ++ (t ++ b) = c :: r ∧ c.toNat < 128 := by
  cases ha with
  | nil =>
    cases he with
    | empty _ => exact ⟨'<', _, rfl, by decide⟩
    | full _ _ _ => exact ⟨'<', _, rfl, by decide⟩
  | blank c hb _ =>
    refine ⟨c, _, rfl, ?_⟩
    rcases (isWs_or c).1 ((isWs_iff c).2 hb) with rfl | rfl | rfl <;> decide
  | note hn _ =>
    rcases (xnote_iff _).1 hn with ⟨q, rfl, _⟩ | ⟨q, rfl, _⟩
    · exact ⟨'<', _, rfl, by decide⟩
    · exact ⟨'<', _, rfl, by decide⟩

theorem unix_first {s t : Str} (h : UnixLines s t) {c : Char} {r : Str} (ht : t = c :: r) : ∃ d u, s = d :: u ∧ (d = c ∨ d = '\r') := by
  cases h with
  | nil => cases ht
  | crlf _ => exact ⟨_, _, rfl, Or.inr rfl⟩
  | cr _ _ => exact ⟨_, _, rfl, Or.inr rfl⟩
  | other d _ _ => cases ht; exact ⟨_, _, rfl, Or.inl rfl⟩

theorem parse_iff (s : Str) (x : Xml) : parse s = some x ↔ XDocument s x := by
  unfold parse
  constructor
  · intro h
    split at h
    · rename_i hc
      obtain ⟨a, t, b, n, at_, v, cs, h1, rfl, ha, he, hb⟩ := (element_iff _ _).1 h
      obtain ⟨bom, h2, h3⟩ := bom_iff s _ rfl
      rw [h2]
      refine .mk ?_ h3 ((unixLines_iff _ _).1 h1) ha he hb
      intro c hcm
      rw [← h2] at hcm
      exact (isChar_iff c).1 ((List.all_eq_true.1 hc) c hcm)
    · cases h
  · intro h
    cases h with
    | @mk bom s a t b n v at_ cs h1 h2 h3 ha he hb =>
      rw [if_pos (List.all_eq_true.2 (fun c hc => (isChar_iff c).2 (h1 c hc)))]
      have hs : dropBom (bom ++ s) = s := by
        rcases h2 with rfl | ⟨c, rfl, hc⟩
        · obtain ⟨c, r, e1, hc⟩ := misc_first (b := b) ha he
          obtain ⟨d, u, rfl, hd⟩ := unix_first h3 e1
          rw [List.nil_append]
          apply dropBom_self
          rcases hd with rfl | rfl
          · omega
          · decide
        · rw [List.singleton_append, dropBom, if_pos hc]
      rw [hs, (unixLines_iff _ _).2 h3]
      exact doc_complete ha he hb

end TTP.XmlText
