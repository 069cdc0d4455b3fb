import Verif.Props.RichVars
/-!
# C151: a template with `ignore`
-/

set_option synthInstance.maxSize 4000

namespace Props
open Py Spec TTP

namespace Ex

/-- a variable without functions -/
def xiState : RVar := ⟨c!"state", []⟩

/-- `port {{ ignore("IFNAME") }} is {{ state }} {{ ignore }}` -/
def xi0 : RLine := ⟨[], [.text c!"port ", .ign (some c!"ge[0-9/]+") c!" ignore(\"IFNAME\") ", .text c!" is ", .var xiState c!" state ",
  .text c!" ", .ign none c!" ignore "], []⟩

/-- the template -/
def xiTpl : List RLine := [xi0]

theorem onelined_of (s : Str) (p : Char) (h : s.all (fun c => c != p && (c == ' ' || !isSpace c)) = true) : p ∉ s ∧ OneLined s := by
  rw [List.all_eq_true] at h
  constructor
  · intro hm; have := h p hm; simp at this
  · intro c hc
    have := h c hc
    simp only [Bool.and_eq_true, Bool.or_eq_true, beq_iff_eq, Bool.not_eq_true'] at this
    rcases this.2 with h | h
    · exact Or.inl (Or.inl h)
    · exact Or.inr h

theorem xi_ok : ∀ l ∈ xiTpl, l.OK varCtx := by
  intro l hl
  simp only [xiTpl, List.mem_cons, List.not_mem_nil, or_false] at hl
  subst hl
  refine ⟨by simp [xi0], by simp [xi0], ?_, by simp [xi0, Parted], ?_, by simp [xi0, varsOf], by simp [xi0, varsOf], ?_, ?_,
    by rw [← List.isPrefixOf_iff_prefix]; decide, by rw [← contains_iff]; decide, ?_⟩
  · intro t hm
    simp only [xi0, List.mem_cons, RPiece.text.injEq, reduceCtorEq, List.not_mem_nil, or_false, false_or] at hm
    rcases hm with rfl | rfl | rfl <;> exact onelined_of _ _ (by decide)
  · intro v b hm
    simp only [xi0, List.mem_cons, RPiece.var.injEq, reduceCtorEq, List.not_mem_nil, or_false, false_or] at hm
    obtain ⟨rfl, rfl⟩ := hm
    refine ⟨⟨name_ok _ (by decide) (by decide) (by decide) (by decide), by simp [xiState]⟩, ⟨[], [], ?_, .nil, rfl⟩, onelined_of _ _ (by decide)⟩
    exact ⟨[], c!" ", c!" ", by decide, spaces_of _ (by decide), by simp, .nil⟩
  · exact ⟨'p', _, rfl, by decide⟩
  · exact ⟨c!"port {{ ignore(\"IFNAME\") }} is {{ state }} {{ ignore }", '}', by decide, by decide⟩
  · intro e b hm
    simp only [xi0, List.mem_cons, RPiece.ign.injEq, reduceCtorEq, List.not_mem_nil, or_false, false_or] at hm
    rcases hm with ⟨rfl, rfl⟩ | ⟨rfl, rfl⟩
    · refine ⟨fun t ht => by cases ht; exact lineExpr_of _ (by decide +kernel), ?_, onelined_of _ _ (by decide)⟩
      refine ⟨⟨c!"ignore", some c!"\"IFNAME\""⟩, c!" ", c!" ", [.str c!"IFNAME"], [], by decide, spaces_of _ (by decide),
        attr_ok _ (by decide) (by decide) (by decide), ⟨rfl, Or.inr ⟨by decide, ?_⟩⟩, Or.inr ⟨_, _, rfl, Or.inl ⟨by decide, rfl⟩, rfl⟩⟩
      show Args.eval (fun _ => none) c!"\"IFNAME\"" = _
      decide +kernel
    · refine ⟨fun t ht => (nomatch ht), ?_, onelined_of _ _ (by decide)⟩
      exact ⟨⟨c!"ignore", none⟩, c!" ", c!" ", [], [], by decide, spaces_of _ (by decide),
        attr_ok _ (by decide) (by decide) (by decide), ⟨rfl, rfl, rfl⟩, Or.inl ⟨rfl, rfl⟩⟩

/-- the text -/
def xiText : Str := c!"port ge0 is up now\nport xe0 is up now\nport ge1 is down   later"

/-- how its lines are read -/
def xiReads : Readings := [some (0, some [(.s c!"state", .str c!"up")]), none, some (0, some [(.s c!"state", .str c!"down")])]

theorem xiReads_ok : All2 (RichReads (MatchFn.builtin W1) ⟨[], []⟩ xiTpl) (splitC '\n' xiText) xiReads := by
  have hs : splitC '\n' xiText = [c!"port ge0 is up now", c!"port xe0 is up now", c!"port ge1 is down   later"] := by decide +kernel
  rw [hs]
  refine .cons ?_ (.cons ?_ (.cons ?_ .nil))
  · exact vread varCtx xiTpl xi_ok _ _ _ (by decide) 0 xi0 rfl [(xiState, c!"up")] rfl _ (.go (.done _) .nil) (by decide +kernel)
  · exact vnone varCtx xiTpl xi_ok _ _ _ (by decide) (by decide +kernel)
  · exact vread varCtx xiTpl xi_ok _ _ _ (by decide) 0 xi0 rfl [(xiState, c!"down")] rfl _ (.go (.done _) .nil) (by decide +kernel)

theorem xi_ends : EndsPlain xiTpl := by
  intro j l hj hk v hv
  have hlt := (List.getElem?_eq_some_iff.1 hj).1
  match j, hj, hlt with
  | 0, hj, _ => cases hj; contradiction
  | n + 1, _, h => exact absurd h (by simp [xiTpl])

end Ex

/-- the hypotheses of C151 are met by a template with `ignore`, with and without an expression -/
example : GroupName c!"ports" ∧ (∀ l ∈ Ex.xiTpl, l.OK Ex.varCtx) ∧ EndsPlain Ex.xiTpl ∧ DefaultsPlain ⟨[], []⟩ Ex.xiTpl ∧
    RichClear (MatchFn.builtin W1) ⟨[], []⟩ Ex.xiTpl Ex.xiText :=
  ⟨⟨by decide, by decide, by decide, by decide⟩, Ex.xi_ok, Ex.xi_ends, fun _ _ _ _ => ⟨by simp [Dict.keys], by simp [Dict.keys]⟩,
    fun t ht => Ex.all2_mem_left Ex.xiReads_ok t ht⟩

/-- What the example means: what `ignore` stands for is in no record, but the line is only read if the text fits. -/
theorem C151_ignore_example : RichMeans (MatchFn.builtin W1) ⟨[], []⟩ c!"ports" false Ex.xiTpl Ex.xiText
    (.dict [(.s c!"ports", .list [.dict [(.s c!"state", .str c!"up")], .dict [(.s c!"state", .str c!"down")]])]) := by
  refine ⟨Ex.xiReads, _, [[(.s c!"state", .str c!"up")], [(.s c!"state", .str c!"down")]], Ex.xiReads_ok, Or.inr ⟨?_, rfl⟩, ?_, rfl⟩
  · rintro ⟨h, _⟩
    exact h (some (0, some [(.s c!"state", .str c!"up")])) (by decide +kernel) (by show kindAt _ 0 = _; decide +kernel)
  · have e : segments ((Ex.xiReads.filterMap id).filterMap (richEv Ex.xiTpl)) = [([(.s c!"state", .str c!"up")], []), ([(.s c!"state", .str c!"down")], [])] := by
      decide +kernel
    have ed : richDefaults Ex.xiTpl = [] := by decide +kernel
    rw [e, ed]
    refine .cons ?_ (.cons ?_ .nil) <;> intro k <;> simp only [Dict.get?, List.cons_append, List.nil_append, List.findSome?_cons, List.findSome?_nil] <;>
      by_cases h1 : Key.s c!"state" = k <;> simp [h1]

/-- the XML element of the example is the template as it is written -/
example : (richXml c!"ports*" Ex.xiTpl none).text = some c!"\nport {{ ignore(\"IFNAME\") }} is {{ state }} {{ ignore }}\n" := by
  decide +kernel

end Props
