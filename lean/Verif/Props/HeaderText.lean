import Verif.Proofs.HeaderText
import Verif.Props.Headers
import Verif.Props.LineText
/-!
# C131: the text of the expression of a line of headings

`headersText` is the text `regex_headers` puts together, `ReText.compile` the model of `re.compile`; `loadLine` makes the syntax
tree directly.
-/

namespace Props
open Py Py.Re Py.ReText Spec TTP

/-- C131. The text that is made of a line of headings is a regular expression, and it finds exactly the matches of the syntax tree
with which C99 describes tables. -/
theorem C131_text_of_headings (ctx : LoadCtx) (dflt : Val) (line content : Str) (attrs : List FnCall) (d d' : Dict Key Val) (rx : LineRx)
    (hload : loadLine ctx dflt line d = .ok (some rx, d')) (hhead : headersVar ctx (elems (lstrip (rstrip line))) = some (content, attrs)) :
    ∃ t r, headersText (rstrip line) attrs = .ok t ∧ compile t = some r ∧ ∀ text, finditer r text = finditer rx.re text := by
  unfold loadLine at hload
  dsimp only at hload
  rw [hhead] at hload
  exact loadHeaders_text ctx dflt _ content attrs d d' rx hload

/-- C131, the text itself, for a number of mandatory columns `k + 1` (by default all but two): a group of the exact width for the first
`k` headings, of at most the width of the heading and not empty for the next one, of at most the width of the heading for the others; the
last one goes up to the end of the line. -/
theorem C131_text (pre : List Str) (m : Str) (mid : List Str) (l : Str) :
    (headerCols (pre ++ m :: (mid ++ [l])) (pre.length + 1)).map headerText = .ok (c!"\\n" ++
      (pre.flatMap (fun h => c!"(?P<" ++ strip h ++ c!">.{" ++ natStr h.length ++ c!"})") ++
       (c!"(?P<" ++ strip m ++ c!">.{1," ++ natStr m.length ++ c!"})") ++
       mid.flatMap (fun h => c!"(?P<" ++ strip h ++ c!">.{0," ++ natStr h.length ++ c!"})") ++
       (c!"(?P<" ++ strip l ++ c!">.*)")) ++ c!"(?=\\n|\\r\\n)") := by
  have h1 : atIndex (pre ++ m :: (mid ++ [l])) ((pre.length : Int) + 1 - 1) = .ok m := by
    unfold atIndex
    rw [if_neg (by omega)]
    have : ((pre.length : Int) + 1 - 1).toNat = pre.length := by omega
    rw [this]
    simp [pure_ok]
  have h2 : atIndex (pre ++ m :: (mid ++ [l])) (-1) = .ok l := by
    unfold atIndex
    rw [if_pos (by omega), if_pos (by simp; omega)]
    have e : (pre ++ m :: (mid ++ [l])).length - (-1 : Int).natAbs = (pre ++ m :: mid).length := by simp
    have e2 : pre ++ m :: (mid ++ [l]) = (pre ++ m :: mid) ++ [l] := by simp
    rw [e, e2]
    simp [pure_ok]
  have h3 : sliceTo (pre ++ m :: (mid ++ [l])) ((pre.length : Int) + 1 - 1) = pre := by
    unfold sliceTo
    rw [if_neg (by omega)]
    have : ((pre.length : Int) + 1 - 1).toNat = pre.length := by omega
    rw [this]; simp
  have h4 : sliceFrom (pre ++ m :: (mid ++ [l])) ((pre.length : Int) + 1) = mid ++ [l] := by
    unfold sliceFrom
    rw [if_neg (by omega)]
    have : ((pre.length : Int) + 1).toNat = pre.length + 1 := by omega
    rw [this, List.drop_append]; simp
  unfold headerCols
  rw [h1, ok_bind]
  dsimp only
  rw [h2, ok_bind, h3, h4, if_neg (by simp; omega)]
  rw [List.map_append, List.map_singleton, ← List.append_assoc, List.dropLast_concat]
  simp [headerText, headerCol, pure_ok, Except.map, List.flatMap, Function.comp_def]

/-- C131, C63. With identifiers as headings the text compiles just if no heading is there twice. -/
theorem C131_compiles_iff (hs : List Str) (hne : ∀ h ∈ hs, h ≠ []) (columns : Int) (cols : List (Str × Str)) (row : List (Str × Re))
    (hc : headerCols hs columns = .ok cols) (hr : headerRows hs columns = .ok row) (hn : ∀ c ∈ cols, nameOk c.1 = true) :
    (∃ r, compile (headerText cols) = some r) ↔ (cols.map Prod.fst).Nodup := by
  obtain ⟨cols', h1, h2⟩ := headerCols_rel hs hne columns row hr
  rw [hc] at h1; cases h1
  have hn' : ∀ r ∈ row, nameOk r.1 = true := by
    intro r hr'
    have : r.1 ∈ cols.map Prod.fst := by rw [h2.names]; exact List.mem_map_of_mem hr'
    obtain ⟨c, hc1, hc2⟩ := List.mem_map.1 this
    rw [← hc2]; exact hn c hc1
  constructor
  · rintro ⟨r, hcomp⟩
    obtain ⟨T, h3, _, h5⟩ := header_parse h2 hn'
    unfold compile at hcomp
    rw [h3] at hcomp
    dsimp only at hcomp
    split at hcomp
    · next hd => rw [h2.names, ← h5]; exact hd
    · cases hcomp
  · intro hd
    rw [h2.names] at hd
    obtain ⟨r, hr1, _⟩ := header_compile h2 hn' hd
    exact ⟨r, hr1⟩

namespace Ex

/-- the text of a line of headings -/
theorem text_of_head : headersText c!" Port   Name  Status {{ _headers_ }}" [] =
    .ok c!"\\n(?P<Port>.{1,8})(?P<Name>.{0,6})(?P<Status>.*)(?=\\n|\\r\\n)" := by decide +kernel

/-- the hypotheses of `C131_text_of_headings` hold -/
example : ∃ rx d r, loadLine hctx (.str c!"_Not_Given_") c!" Port   Name  Status {{ _headers_ }}" [] = .ok (some rx, d) ∧
    compile c!"\\n(?P<Port>.{1,8})(?P<Name>.{0,6})(?P<Status>.*)(?=\\n|\\r\\n)" = some r ∧
    ∀ text, finditer r text = finditer rx.re text := by
  obtain ⟨rx, d, h⟩ := loaded_of (x := loadLine hctx (.str c!"_Not_Given_") c!" Port   Name  Status {{ _headers_ }}" []) (by decide +kernel)
  obtain ⟨t, r, h1, h2, h3⟩ := C131_text_of_headings hctx _ _ c!" _headers_ " [] [] d rx h (by decide +kernel)
  rw [show rstrip c!" Port   Name  Status {{ _headers_ }}" = c!" Port   Name  Status {{ _headers_ }}" from by decide, text_of_head] at h1
  cases h1
  exact ⟨rx, d, r, h, h2, h3⟩

/-- two headings of one name -/
example : (headerCols [c!"Port ", c!"Name ", c!"Port"] 1).map (fun c => compile (headerText c)) = .ok none := by decide +kernel

end Ex

end Props
