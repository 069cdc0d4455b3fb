import Verif.Proofs.Patterns2
import Verif.Proofs.PyStr
import Verif.Spec.Ip
/-!
# C132: what the named patterns match

`NamedMatch name s` (Verif/Spec/Patterns.lean): the pattern TTP knows under the name, compiled as regular expression, matches the
whole text `s`. What the texts are is written down in Verif/Spec/Patterns.lean without regular expressions.
-/

namespace Props
open Py Spec TTP

theorem named_of {name p : Str} {L : Str → Prop} (hp : getPattern name = some p) (h : ∀ s, FullMatch p s ↔ L s) (s : Str) :
    NamedMatch name s ↔ L s := by
  unfold NamedMatch
  rw [hp]
  constructor
  · rintro ⟨q, e, hq⟩; cases e; exact (h s).1 hq
  · intro hl; exact ⟨p, rfl, (h s).2 hl⟩

/-- `WORD`: anything without white space, not empty. -/
theorem C132_word (s : Str) : NamedMatch c!"WORD" s ↔ Word s :=
  named_of rfl (Lang.full compile_word lang_word.seqEps) s

/-- `DIGIT`: digits. -/
theorem C132_digit (s : Str) : NamedMatch c!"DIGIT" s ↔ Digits s :=
  named_of rfl (Lang.full compile_digit ((Lang.plusCls true .digit).congr (fun _ => Iff.rfl)).seqEps) s

/-- `_line_`: anything on one line, not empty. -/
theorem C132_line (s : Str) : NamedMatch c!"_line_" s ↔ s ≠ [] ∧ '\n' ∉ s :=
  named_of (L := fun s => s ≠ [] ∧ '\n' ∉ s) rfl (Lang.full compile_line ((Lang.plusCls true .dot).congr (fun s => by
    refine and_congr Iff.rfl ⟨fun h hn => ?_, fun h x hx => ?_⟩
    · have := h _ hn; simp [CC.test] at this
    · simp only [CC.test, bne_iff_ne, ne_eq]; rintro rfl; exact h hx)).seqEps) s

/-- `PHRASE`: at least two words with exactly one blank between them. -/
theorem C132_phrase (s : Str) : NamedMatch c!"PHRASE" s ↔ PhraseText s :=
  named_of rfl (Lang.full compile_phrase lang_phrase) s

/-- `ROW`: at least two words with blanks between them. -/
theorem C132_row (s : Str) : NamedMatch c!"ROW" s ↔ RowText s :=
  named_of rfl (Lang.full compile_row lang_row) s

/-- `ORPHRASE`: a word or a phrase. -/
theorem C132_orphrase (s : Str) : NamedMatch c!"ORPHRASE" s ↔ Word s ∨ PhraseText s :=
  named_of rfl (Lang.full compile_orphrase (lang_word.seqEps.alt lang_phrase)) s

/-- `IP`: four numbers of one to three digits. -/
theorem C132_ip (s : Str) : NamedMatch c!"IP" s ↔ Ip4Text s :=
  named_of rfl (Lang.full compile_ip ((lang_ip Lang.eps).congr (fun s => by
    constructor
    · rintro ⟨u, _, hu, rfl, rfl⟩; rw [List.append_nil]; exact hu
    · intro h; exact ⟨s, [], h, rfl, (List.append_nil _).symm⟩))) s

theorem lang_slash (k : Nat) : Lang (.seq (.cls (.lit '/')) (.seq (ReText.times 1 (.cls ccDig) (ReText.atMost true k (.cls ccDig))) .eps))
    (fun v => ∃ m, DigitsN 1 (1 + k) m ∧ v = '/' :: m) :=
  ((Lang.lit '/').seq (lang_dig k).seqEps).congr (fun s => by
    constructor
    · rintro ⟨_, m, rfl, hm, rfl⟩; exact ⟨m, hm, rfl⟩
    · rintro ⟨m, hm, rfl⟩; exact ⟨_, m, rfl, hm, rfl⟩)

theorem slash_iff {P M : Str → Prop} (s : Str) :
    (∃ u v, P u ∧ (∃ m, M m ∧ v = '/' :: m) ∧ s = u ++ v) ↔ ∃ a m, P a ∧ M m ∧ s = a ++ '/' :: m := by
  constructor
  · rintro ⟨u, _, hu, ⟨m, hm, rfl⟩, rfl⟩; exact ⟨u, m, hu, hm, rfl⟩
  · rintro ⟨a, m, ha, hm, rfl⟩; exact ⟨a, _, ha, ⟨m, hm, rfl⟩, rfl⟩

/-- `PREFIX`: the same, a slash, one or two digits. -/
theorem C132_prefix (s : Str) : NamedMatch c!"PREFIX" s ↔ ∃ a m, Ip4Text a ∧ DigitsN 1 2 m ∧ s = a ++ '/' :: m :=
  named_of rfl (Lang.full compile_prefix ((lang_ip (lang_slash 1)).congr slash_iff)) s

/-- `IPV6`: one to seven times up to four hexadecimal digits and a colon, then up to four digits or a colon. -/
theorem C132_ipv6 (s : Str) : NamedMatch c!"IPV6" s ↔ Ip6Text s :=
  named_of rfl (Lang.full compile_ip6 ((lang_ip6 Lang.eps).congr (fun s => by
    constructor
    · rintro ⟨u, _, hu, rfl, rfl⟩; rw [List.append_nil]; exact hu
    · intro h; exact ⟨s, [], h, rfl, (List.append_nil _).symm⟩))) s

/-- `PREFIXV6`: the same, a slash, one to three digits. -/
theorem C132_prefixv6 (s : Str) : NamedMatch c!"PREFIXV6" s ↔ ∃ a m, Ip6Text a ∧ DigitsN 1 3 m ∧ s = a ++ '/' :: m :=
  named_of rfl (Lang.full compile_prefix6 ((lang_ip6 (lang_slash 2)).congr slash_iff)) s

/-- `MAC`: six pairs or three fours of hexadecimal digits, separated by colons, dots or dashes. -/
theorem C132_mac (s : Str) : NamedMatch c!"MAC" s ↔ MacText s :=
  named_of rfl (Lang.full compile_mac ((lang_mac 2 5).alt (lang_mac 4 2))) s

/-- Every dotted IPv4 address is matched by `IP` ... -/
theorem C132_every_address (s : Str) (x : Nat) (h : V4 s x) : NamedMatch c!"IP" s := by
  rw [C132_ip, h.2]
  have hd : ∀ n, DigitsN 1 3 (natStr (n % 256)) := by
    intro n
    have hall : ∀ k : Fin 256, 1 ≤ (natStr k.val).length ∧ (natStr k.val).length ≤ 3 ∧ ∀ c ∈ natStr k.val, isDigit c = true := by
      decide +kernel
    exact hall ⟨n % 256, Nat.mod_lt _ (by omega)⟩
  refine ⟨_, _, _, _, hd (x / 2 ^ 24), hd (x / 2 ^ 16), hd (x / 2 ^ 8), hd x, ?_⟩
  simp [dotted, octets, join]

/-- ... but `IP` matches more than addresses. -/
theorem C132_not_only_addresses : NamedMatch c!"IP" c!"999.999.999.999" ∧ ¬ ∃ x, V4 c!"999.999.999.999" x := by
  constructor
  · rw [C132_ip]
    exact ⟨c!"999", c!"999", c!"999", c!"999", by unfold DigitsN Digit; decide, by unfold DigitsN Digit; decide, by unfold DigitsN Digit; decide, by unfold DigitsN Digit; decide, rfl⟩
  · rintro ⟨x, _, h⟩
    have hall : ∀ k : Fin 256, (natStr k.val).head? ≠ some '9' ∨ (natStr k.val).length ≤ 2 := by decide +kernel
    have h4 : (natStr (x / 2 ^ 24 % 256)) ++ '.' :: (natStr (x / 2 ^ 16 % 256) ++ '.' :: (natStr (x / 2 ^ 8 % 256) ++ '.' :: natStr (x % 256)))
        = c!"999.999.999.999" := by rw [h]; simp [dotted, octets, join]
    generalize hw : natStr (x / 2 ^ 24 % 256) = w at h4
    have hk := hall ⟨x / 2 ^ 24 % 256, Nat.mod_lt _ (by omega)⟩
    simp only [hw] at hk
    have hnd : ∀ c ∈ w, isDigit c = true := by
      have hall2 : ∀ k : Fin 256, ∀ c ∈ natStr k.val, isDigit c = true := by decide +kernel
      have := hall2 ⟨x / 2 ^ 24 % 256, Nat.mod_lt _ (by omega)⟩
      simp only [hw] at this
      exact this
    match w, h4, hk with
    | [], h4, _ => revert h4; simp
    | [a], h4, _ => simp at h4
    | [a, b], h4, _ => simp at h4
    | a :: b :: c :: t, h4, hk =>
      simp at h4
      rcases hk with hk | hk
      · exact hk (by rw [h4.1]; rfl)
      · simp at hk

/-- The separators of a `MAC` need not be the same ones, -/
theorem C132_mac_mixed : NamedMatch c!"MAC" c!"00:11.22-33:44.55" := by
  rw [C132_mac]
  refine Or.inl ⟨c!"00", ':', c!"11.22-33:44.55", by unfold HexN HexDigit; decide, by decide, rfl, c!"11", '.', c!"22-33:44.55", by unfold HexN HexDigit; decide, by decide, rfl,
    c!"22", '-', c!"33:44.55", by unfold HexN HexDigit; decide, by decide, rfl, c!"33", ':', c!"44.55", by unfold HexN HexDigit; decide, by decide, rfl,
    c!"44", '.', c!"55", by unfold HexN HexDigit; decide, by decide, rfl, ?_⟩
  show HexN 2 2 c!"55"
  unfold HexN HexDigit; decide

theorem ip6_chars (s : Str) (h : Ip6Text s) : ∀ c ∈ s, HexDigit c ∨ c = ':' := by
  obtain ⟨ws, t, _, _, hws, ht, rfl⟩ := h
  intro c hc
  rcases List.mem_append.1 hc with hc | hc
  · obtain ⟨l, hl, hcl⟩ := List.mem_flatten.1 hc
    obtain ⟨w, hw, rfl⟩ := List.mem_map.1 hl
    rcases List.mem_append.1 hcl with hcl | hcl
    · exact Or.inl ((hws w hw).2.2 c hcl)
    · simp at hcl; exact Or.inr hcl
  · rcases ht with ht | rfl
    · exact Or.inl (ht.2.2 c hc)
    · simp at hc; exact Or.inr hc

/-- and `IPV6` does not match addresses with an embedded IPv4 address; it matches `:`. -/
theorem C132_ipv6_limits : ¬ NamedMatch c!"IPV6" c!"::ffff:1.2.3.4" ∧ NamedMatch c!"IPV6" c!":" := by
  rw [C132_ipv6, C132_ipv6]
  constructor
  · intro h
    have := ip6_chars _ h '.' (by decide)
    revert this; unfold HexDigit; decide
  · exact ⟨[[]], [], by decide, by decide, by unfold HexN HexDigit; decide, Or.inl (by unfold HexN HexDigit; decide), rfl⟩

/-- Nothing a named pattern matches goes over the end of a line. -/
theorem C132_one_line (name s : Str) (h : NamedMatch name s) : '\n' ∉ s := by
  have hw : ∀ w, Word w → '\n' ∉ w := fun w hw hn => by have := hw.2 _ hn; revert this; decide
  have hd : ∀ {lo hi w}, DigitsN lo hi w → '\n' ∉ w := fun hw hn => by have := hw.2.2 _ hn; revert this; unfold Digit; decide
  have hx : ∀ {lo hi w}, HexN lo hi w → '\n' ∉ w := fun hw hn => by have := hw.2.2 _ hn; revert this; unfold HexDigit; decide
  have hp : ∀ w, PhraseText w → '\n' ∉ w := by
    intro w h
    induction h with
    | two a b ha hb => simp [hw a ha, hw b hb]
    | more a s ha hs ih => simp [hw a ha, ih]
  have hr : ∀ w, RowText w → '\n' ∉ w := by
    intro w h
    induction h with
    | two a b n ha hb => simp [hw a ha, hw b hb]
    | more a s n ha hs ih => simp [hw a ha, ih]
  have h4 : ∀ w, Ip4Text w → '\n' ∉ w := by
    rintro _ ⟨a, b, c, d, ha, hb, hc, hd', rfl⟩
    simp [hd ha, hd hb, hd hc, hd hd']
  have h6 : ∀ w, Ip6Text w → '\n' ∉ w := by
    intro w h hn
    have := ip6_chars w h _ hn
    revert this; unfold HexDigit; decide
  have hm : ∀ k n w, HexPieces k n w → '\n' ∉ w := by
    intro k n
    induction n with
    | zero => intro w h; exact hx h
    | succ n ih =>
      rintro _ ⟨w, c, rest, hw', hc, rfl, hrest⟩
      have : '\n' ≠ c := by rcases hc with rfl | rfl | rfl <;> decide
      simp [hx hw', ih rest hrest, this]
  obtain ⟨p, e, hf⟩ := h
  have hn : NamedMatch name s := ⟨p, e, hf⟩
  have hmem : name ∈ [c!"PHRASE", c!"ROW", c!"ORPHRASE", c!"DIGIT", c!"IP", c!"PREFIX", c!"IPV6", c!"PREFIXV6", c!"_line_", c!"WORD", c!"MAC"] := by
    have := Dict.mem_of_get? _ _ _ e
    have := List.mem_map_of_mem (f := Prod.fst) this
    simpa using this
  simp only [List.mem_cons, List.not_mem_nil, or_false] at hmem
  rcases hmem with rfl | rfl | rfl | rfl | rfl | rfl | rfl | rfl | rfl | rfl | rfl
  · exact hp s ((C132_phrase s).1 hn)
  · exact hr s ((C132_row s).1 hn)
  · rcases (C132_orphrase s).1 hn with h | h
    · exact hw s h
    · exact hp s h
  · intro hc
    have := ((C132_digit s).1 hn).2 _ hc
    revert this; unfold Digit; decide
  · exact h4 s ((C132_ip s).1 hn)
  · obtain ⟨a, m, ha, hm, rfl⟩ := (C132_prefix s).1 hn
    simp [h4 a ha, hd hm]
  · exact h6 s ((C132_ipv6 s).1 hn)
  · obtain ⟨a, m, ha, hm, rfl⟩ := (C132_prefixv6 s).1 hn
    simp [h6 a ha, hd hm]
  · exact ((C132_line s).1 hn).2
  · exact hw s ((C132_word s).1 hn)
  · rcases (C132_mac s).1 hn with h | h
    · exact hm _ _ s h
    · exact hm _ _ s h

/-- Escaped text (`re.escape`) matches itself and nothing else, whatever characters it has. -/
theorem C132_escaped (t s : Str) : FullMatch (ReText.escapeText t) s ↔ s = t := by
  have hc : Chunk (ReText.escapeText t) (t.map (fun c => .cls (.lit c))) := by
    induction t with
    | nil => exact Chunk.nil
    | cons c t ih => rw [escapeText_cons]; exact (Chunk.escapeChar c).append ih
  obtain ⟨n, hn⟩ := hc.reads [] .eps [] rfl (seq_end [] rfl)
  have hp : ReText.parseAll (ReText.escapeText t) = some (chain (t.map (fun c => .cls (.lit c))) .eps) := by
    refine (ReText.parseAll_iff _ _).2 ⟨n + 1, ?_⟩
    rw [ReText.parse, ← List.append_nil (ReText.escapeText t), hn]
    rfl
  have hl : Lang (chain (t.map (fun c => .cls (.lit c))) .eps) (· = t) := by
    clear hp hn hc
    induction t with
    | nil => exact Lang.eps
    | cons c t ih =>
      refine ((Lang.lit c).seq ih).congr (fun s => ?_)
      constructor
      · rintro ⟨_, _, rfl, rfl, rfl⟩; rfl
      · rintro rfl; exact ⟨_, _, rfl, rfl, rfl⟩
  refine Lang.full (L := (· = t)) ?_ hl s
  unfold ReText.compile
  rw [hp]
  dsimp only
  rw [if_pos]
  rw [names_chain]
  have : (t.map (fun c => Re.cls (.lit c))).flatMap ReText.names = [] := by
    clear hl hp hn hc
    induction t with
    | nil => rfl
    | cons c t ih => simp [ReText.names]
  rw [this]
  simp [ReText.names]

/-- unescaped text does not -/
example : FullMatch c!"a.c" c!"abc" ∧ ¬ FullMatch (ReText.escapeText c!"a.c") c!"abc" := by
  refine ⟨⟨_, rfl, (c!"abc", [], []), by decide, rfl⟩, ?_⟩
  rw [C132_escaped]
  decide

namespace Ex

/-- words and phrases -/
example : NamedMatch c!"WORD" c!"Gi0/1" ∧ NamedMatch c!"PHRASE" c!"some text here" ∧ ¬ NamedMatch c!"PHRASE" c!"word" ∧
    NamedMatch c!"ROW" c!"a   b" := by
  refine ⟨(C132_word _).2 (by unfold Word; decide), (C132_phrase _).2 ?_, ?_, (C132_row _).2 ?_⟩
  · exact PhraseText.more c!"some" c!"text here" (by unfold Word; decide) (PhraseText.two c!"text" c!"here" (by unfold Word; decide) (by unfold Word; decide))
  · rw [C132_phrase]
    intro h
    have : ' ' ∈ c!"word" := by
      generalize hg : c!"word" = w at h
      cases h with
      | two a b _ _ => simp
      | more a s _ _ => simp
    revert this; decide
  · exact RowText.two c!"a" c!"b" 2 (by unfold Word; decide) (by unfold Word; decide)

/-- addresses -/
example : NamedMatch c!"IP" c!"10.0.0.1" ∧ NamedMatch c!"PREFIX" c!"10.0.0.0/24" ∧ NamedMatch c!"IPV6" c!"fe80::1" := by
  have ip : Ip4Text c!"10.0.0.1" := ⟨c!"10", c!"0", c!"0", c!"1", by unfold DigitsN Digit; decide, by unfold DigitsN Digit; decide, by unfold DigitsN Digit; decide, by unfold DigitsN Digit; decide, rfl⟩
  have ip0 : Ip4Text c!"10.0.0.0" := ⟨c!"10", c!"0", c!"0", c!"0", by unfold DigitsN Digit; decide, by unfold DigitsN Digit; decide, by unfold DigitsN Digit; decide, by unfold DigitsN Digit; decide, rfl⟩
  refine ⟨(C132_ip _).2 ip, (C132_prefix _).2 ⟨_, c!"24", ip0, by unfold DigitsN Digit; decide, rfl⟩, (C132_ipv6 _).2 ?_⟩
  exact ⟨[c!"fe80", []], c!"1", by decide, by decide, by unfold HexN HexDigit; decide, Or.inl (by unfold HexN HexDigit; decide), rfl⟩

example : V4 c!"10.0.0.1" (10 * 2 ^ 24 + 1) := ⟨by decide, by decide⟩

end Ex

end Props
