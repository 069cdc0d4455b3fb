import Verif.Proofs.LineText6
/-!
# C130, C63: the text of the regular expression of a line

`lineEls` are the pieces of a template line with its variables as the loader finds them, `lineText` is the text that is given to
`re.compile`, `ReText.compile` is the model of `re.compile`; `loadLine` makes the syntax tree directly.
-/

namespace Props
open Py Py.Re Py.ReText Spec TTP

namespace Ex

/-- texts in double quotes, separated by commas -/
def quoted (s : Str) : List Val := (splitC ',' s).map (fun a => .str ((strip a).filter (· != '"')))

/-- patterns of TTP, `re.compile`, one template variable -/
def rctx : LoadCtx := ⟨[(c!"port", .str c!"(?:Gi|Te)[0-9/]{1,7}")], getPattern, fun s => some (quoted s, []), parseAll, fun _ => false⟩

/-- a template line -/
def rline : Str := c!"  interface {{ name | re(\"port\") | ORPHRASE }} (mtu 1500) {{ mac-addr | MAC }} {{ ignore(\"\\d+\") }} {{ d | _start_ }}"

/-- its pieces -/
def rels : List (Elem TextVar) :=
  (c!"interface ").map .ch ++ [.var ⟨c!" name | re(\"port\") | ORPHRASE ", c!"name", [c!"(?:Gi|Te)[0-9/]{1,7}", c!"\\S+|(\\S+ {1})+?\\S+"], .none, false⟩] ++
    (c!" (mtu 1500) ").map .ch ++ [.var ⟨c!" mac-addr | MAC ", c!"mac_addr",
      [c!"(?:[0-9a-fA-F]{2}(:|\\.|\\-)){5}([0-9a-fA-F]{2})|(?:[0-9a-fA-F]{4}(:|\\.|\\-)){2}([0-9a-fA-F]{4})"], .none, false⟩] ++ (c!" ").map .ch ++
    [.var ⟨c!" ignore(\"\\d+\") ", c!"ignore", [], .one c!"\\d+", false⟩] ++ (c!" ").map .ch ++ [.var ⟨c!" d | _start_ ", c!"d", [], .none, false⟩]

/-- does an evaluation give a line -/
def isLoaded (x : PyM (Option LineRx × Dict Key Val)) : Bool :=
  match x with
  | .ok (some _, _) => true
  | _ => false

theorem loaded_of {x : PyM (Option LineRx × Dict Key Val)} (h : isLoaded x = true) : ∃ rx d, x = .ok (some rx, d) := by
  cases x with
  | error e => cases h
  | ok y =>
    obtain ⟨o, d⟩ := y
    cases o with
    | none => cases h
    | some rx => exact ⟨rx, d, rfl⟩

end Ex

/-! ## C130 -/

/-- C130. The text that `form_regex` puts together for a template line - by escaping the literal text, replacing runs of blanks and
digits, and replacing the variables one after the other - is a regular expression, and it finds exactly the matches of the syntax
tree with which the other properties describe the line, in every text. -/
theorem C130_text_of_a_line (ctx : LoadCtx) (hre : ctx.re = parseAll) (dflt : Val) (line : Str) (d d' : Dict Key Val) (rx : LineRx)
    (hload : loadLine ctx dflt line d = .ok (some rx, d')) (hhead : headersVar ctx (elems (lstrip (rstrip line))) = none)
    (vs : List (Elem TextVar)) (hvs : lineEls ctx line = .ok vs) (hu : ∀ v ∈ elemVars vs, Usual v) :
    ∃ r, compile (lineText line vs) = some r ∧ ∀ text, finditer r text = finditer rx.re text := by
  have hn : ∀ v ∈ elemVars vs, nameOk v.name = true := textEls_names ctx _ _ vs hvs
  obtain ⟨T, h1, h2⟩ := loadLine_text ctx hre dflt line d d' rx hload hhead vs hvs (fun v hv => (usual_ok (hu v hv) (hn v hv)).2)
    (fun v hv => (usual_ok (hu v hv) (hn v hv)).1)
  exact ⟨T, h1, run_finditer h2⟩

theorem Ex.rels_of_rline : lineEls Ex.rctx Ex.rline = .ok Ex.rels := by decide +kernel

/-- the text of that line -/
theorem Ex.text_of_rline : lineText Ex.rline Ex.rels = c!"\\n  interface[ \\t]+(?P<name>(?:(?:Gi|Te)[0-9/]{1,7})|(?:\\S+|(\\S+ {1})+?\\S+))[ \\t]+\\(mtu[ \\t]+\\d+\\)[ \\t]+(?P<mac_addr>(?:(?:[0-9a-fA-F]{2}(:|\\.|\\-)){5}([0-9a-fA-F]{2})|(?:[0-9a-fA-F]{4}(:|\\.|\\-)){2}([0-9a-fA-F]{4})))[ \\t]+(?:\\d+)[ \\t]+(?P<d>(?:\\S+))[\\t ]*(?=\\n|\\r\\n)" := by
  decide +kernel

/-- the hypotheses of `C130_text_of_a_line` hold for that line -/
example : ∃ rx d r, loadLine Ex.rctx (.str c!"_Not_Given_") Ex.rline [] = .ok (some rx, d) ∧ compile (lineText Ex.rline Ex.rels) = some r ∧
    ∀ text, finditer r text = finditer rx.re text := by
  obtain ⟨rx, d, h⟩ := Ex.loaded_of (x := loadLine Ex.rctx (.str c!"_Not_Given_") Ex.rline []) (by decide +kernel)
  obtain ⟨r, h1, h2⟩ := C130_text_of_a_line Ex.rctx rfl (.str c!"_Not_Given_") Ex.rline [] d rx h (by decide +kernel) Ex.rels Ex.rels_of_rline (by
    have nb2 : ∀ s : Str, nb s = true → ¬ c!"{{" <:+: s := fun s => (nb_iff s).1
    intro v hv
    simp only [Ex.rels, elemVars_append, elemVars_chars, elemVars, List.nil_append, List.append_nil, List.cons_append,
      List.mem_cons, List.mem_nil_iff, or_false] at hv
    rcases hv with rfl | rfl | rfl | rfl
    · exact ⟨by intro p hp; simp only [List.mem_cons, List.mem_nil_iff, or_false] at hp; rcases hp with rfl | rfl <;> exact nb2 _ (by decide),
        by simp, by simp, by simp, by simp⟩
    · exact ⟨by intro p hp; simp only [List.mem_cons, List.mem_nil_iff, or_false] at hp; rcases hp with rfl; exact nb2 _ (by decide),
        by simp, by simp, by simp, by simp⟩
    · exact ⟨by simp, by intro p hp; cases hp; exact nb2 _ (by decide), by simp, by simp, by simp⟩
    · exact ⟨by simp, by simp, by simp, by simp, by simp⟩)
  exact ⟨rx, d, r, h, h1, h2⟩

/-- C130, C63. The text of a line compiles just if the line captures under different names (sanitized names of its variables up to the
first `_start_`, `_end_` or conditional `set`); otherwise the template cannot be loaded. The patterns compile, and have no named groups of their own. -/
theorem C130_compiles_iff (ctx : LoadCtx) (line : Str) (vs : List (Elem TextVar)) (hvs : lineEls ctx line = .ok vs)
    (hu : ∀ v ∈ elemVars vs, Usual v) (hp : ∀ v ∈ elemVars vs, (∀ p ∈ v.res, PlainPattern p) ∧ ∀ p, v.ign = .one p → PlainPattern p) :
    (∃ r, compile (lineText line vs) = some r) ↔ (captured (elemVars vs)).Nodup :=
  compile_iff _ _ _ (indent_space line) vs (fun v hv => ⟨hu v hv, textEls_names ctx _ _ vs hvs v hv, hp v hv⟩)

/-- C63, what does not hold: names that are different in the template can be the same group; then the text does not compile, and the
line is not loaded. The same happens to a variable that is twice on a line. -/
theorem C63_clash_not_loaded :
    (∃ vs, lineEls Ex.rctx c!"{{ mac-addr }} {{ mac.addr }}" = .ok vs ∧
      lineText c!"{{ mac-addr }} {{ mac.addr }}" vs = c!"\\n(?P<mac_addr>(?:\\S+))[ \\t]+(?P<mac_addr>(?:\\S+))[\\t ]*(?=\\n|\\r\\n)" ∧
      compile (lineText c!"{{ mac-addr }} {{ mac.addr }}" vs) = none) ∧
    loadLine Ex.rctx (.str c!"_Not_Given_") c!"{{ mac-addr }} {{ mac.addr }}" [] = .error .reError ∧
    loadLine Ex.rctx (.str c!"_Not_Given_") c!"{{ a }} {{ a }}" [] = .error .reError ∧
    Ex.isLoaded (loadLine Ex.rctx (.str c!"_Not_Given_") c!"{{ a }} {{ b }}" []) = true := by
  refine ⟨⟨[.var ⟨c!" mac-addr ", c!"mac_addr", [], .none, false⟩, .ch ' ', .var ⟨c!" mac.addr ", c!"mac_addr", [], .none, false⟩],
    by decide +kernel, by decide +kernel, by decide +kernel⟩, by decide +kernel, by decide +kernel, by decide +kernel⟩

/-- C130, what does not hold: `ignore` with two arguments is not replaced, and its text becomes a part of the expression - it matches the
text of the template itself instead of any of the two patterns. -/
theorem C130_ignore_two_arguments :
    ∃ vs r, lineEls Ex.rctx c!"x {{ ignore(\"a\", \"b\") }} {{ y }}" = .ok vs ∧
      lineText c!"x {{ ignore(\"a\", \"b\") }} {{ y }}" vs =
        c!"\\nx[ \\t]+{{ ignore(\"a\", \"b\") }}[ \\t]+(?P<y>(?:\\S+))[\\t ]*(?=\\n|\\r\\n)" ∧
      compile (lineText c!"x {{ ignore(\"a\", \"b\") }} {{ y }}" vs) = some r ∧
      finditer r c!"\nx a 1\nx b 2\n" = [] ∧
      finditer r c!"\nx {{ ignore\"a\", \"b\" }} 3\n" = [⟨0, c!"\nx {{ ignore\"a\", \"b\" }} 3", [(c!"y", c!"3")]⟩] := by
  have h : ∃ r, compile (lineText c!"x {{ ignore(\"a\", \"b\") }} {{ y }}"
      [.ch 'x', .ch ' ', .var ⟨c!" ignore(\"a\", \"b\") ", c!"ignore", [], .many, false⟩, .ch ' ', .var ⟨c!" y ", c!"y", [], .none, false⟩]) = some r := by
    exact Option.isSome_iff_exists.1 (by decide +kernel)
  obtain ⟨r, hr⟩ := h
  refine ⟨_, r, by decide +kernel, by decide +kernel, hr, ?_, ?_⟩
  · have : (compile (lineText c!"x {{ ignore(\"a\", \"b\") }} {{ y }}"
      [.ch 'x', .ch ' ', .var ⟨c!" ignore(\"a\", \"b\") ", c!"ignore", [], .many, false⟩, .ch ' ', .var ⟨c!" y ", c!"y", [], .none, false⟩])).map
        (fun r => finditer r c!"\nx a 1\nx b 2\n") = some [] := by decide +kernel
    rw [hr] at this
    exact Option.some.inj this
  · have : (compile (lineText c!"x {{ ignore(\"a\", \"b\") }} {{ y }}"
      [.ch 'x', .ch ' ', .var ⟨c!" ignore(\"a\", \"b\") ", c!"ignore", [], .many, false⟩, .ch ' ', .var ⟨c!" y ", c!"y", [], .none, false⟩])).map
        (fun r => finditer r c!"\nx {{ ignore\"a\", \"b\" }} 3\n") = some [⟨0, c!"\nx {{ ignore\"a\", \"b\" }} 3", [(c!"y", c!"3")]⟩] := by decide +kernel
    rw [hr] at this
    exact Option.some.inj this

/-- a template variable that is no regular expression on its own -/
def Ex.pctx : LoadCtx := { Ex.rctx with vars := [(c!"ab", .str c!"a)|(?:b")] }

/-- C130, what does not hold: a pattern is pasted into the text as it is. One that is no regular expression on its own can still end the
group and begin another one; `re.compile` takes the result. -/
theorem C130_pattern_pasted : parseAll c!"a)|(?:b" = none ∧
    ∃ vs r, lineEls Ex.pctx c!"x {{ y | re(\"ab\") }}" = .ok vs ∧
      lineText c!"x {{ y | re(\"ab\") }}" vs = c!"\\nx[ \\t]+(?P<y>(?:a)|(?:b))[\\t ]*(?=\\n|\\r\\n)" ∧
      compile (lineText c!"x {{ y | re(\"ab\") }}" vs) = some r ∧
      finditer r c!"\nx b\n" = [⟨0, c!"\nx b", [(c!"y", c!"b")]⟩] := by
  refine ⟨by decide +kernel, ?_⟩
  have h : ∃ r, compile (lineText c!"x {{ y | re(\"ab\") }}"
      [.ch 'x', .ch ' ', .var ⟨c!" y | re(\"ab\") ", c!"y", [c!"a)|(?:b"], .none, false⟩]) = some r :=
    Option.isSome_iff_exists.1 (by decide +kernel)
  obtain ⟨r, hr⟩ := h
  refine ⟨_, r, by decide +kernel, by decide +kernel, hr, ?_⟩
  have : (compile (lineText c!"x {{ y | re(\"ab\") }}"
      [.ch 'x', .ch ' ', .var ⟨c!" y | re(\"ab\") ", c!"y", [c!"a)|(?:b"], .none, false⟩])).map
        (fun r => finditer r c!"\nx b\n") = some [⟨0, c!"\nx b", [(c!"y", c!"b")]⟩] := by decide +kernel
  rw [hr] at this
  exact Option.some.inj this

end Props
