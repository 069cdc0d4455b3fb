import Verif.Spec.Rich
import Verif.Proofs.Whole3
import Verif.Props.Patterns
/-! # Lemmas: what the functions of a variable are made of -/

set_option synthInstance.maxSize 4000

namespace TTP
open Py Spec

theorem argsFromVars_taken (vars : Dict Str Val) (as : List Val) :
    ((∀ a ∈ as, ¬ IsStructure a) → argsFromVars vars as = .ok (as.map (argTaken vars))) ∧
    ((∃ a ∈ as, IsStructure a) → argsFromVars vars as = .error .typeError) := by
  induction as with
  | nil => exact ⟨fun _ => rfl, by simp⟩
  | cons a as ih =>
    have ha : (¬ IsStructure a → argFromVars vars a = .ok (argTaken vars a)) ∧ (IsStructure a → argFromVars vars a = .error .typeError) := by
      cases a with
      | str s =>
        refine ⟨fun _ => ?_, ?_⟩
        · simp only [argFromVars, argTaken, pure_ok]
          cases Dict.get? vars s <;> rfl
        · rintro (⟨_, e⟩ | ⟨_, e⟩) <;> cases e
      | list xs => exact ⟨fun h => absurd (Or.inl ⟨xs, rfl⟩) h, fun _ => rfl⟩
      | dict xs => exact ⟨fun h => absurd (Or.inr ⟨xs, rfl⟩) h, fun _ => rfl⟩
      | _ => exact ⟨fun _ => rfl, by rintro (⟨_, e⟩ | ⟨_, e⟩) <;> cases e⟩
    constructor
    · intro h
      simp only [argsFromVars, ha.1 (h a (by simp)), ih.1 (fun x hx => h x (by simp [hx])), ok_bind, pure_ok, List.map_cons]
    · rintro ⟨x, hx, hs⟩
      by_cases hb : IsStructure a
      · simp only [argsFromVars, ha.2 hb, err_bind]
      · rcases List.mem_cons.1 hx with rfl | hx
        · exact absurd hs hb
        · simp only [argsFromVars, ha.1 hb, ok_bind, ih.2 ⟨x, hx, hs⟩, err_bind]

theorem extract_arg (ctx : LoadCtx) (orig line : Str) (n : Nat) (f : FnCall) (hf : f.name ∈ argFunctions) (st : VarSt) :
    extract ctx orig line (n + 1) f st = (do
      let args ← argsFromVars ctx.vars f.args
      pure { st with attrs := st.attrs ++ [.fn { f with args := args }] }) := by
  obtain ⟨name, args, kwargs⟩ := f
  simp only at hf
  have hak : name ∈ argKeywords := hf
  have hn : ∀ w, w ∉ argFunctions → name ≠ w := by rintro w hw rfl; exact hw hf
  have n1 := hn c!"ignore" (by decide)
  have n2 := hn c!"_start_" (by decide)
  have n3 := hn c!"_headers_" (by decide)
  have n4 := hn c!"_end_" (by decide)
  have n5 := hn c!"_line_" (by decide)
  have n6 := hn c!"_exact_" (by decide)
  have n7 := hn c!"_exact_space_" (by decide)
  have n8 := hn c!"columns" (by decide)
  have n9 := hn c!"chain" (by decide)
  have n10 := hn c!"set" (by decide)
  have n11 := hn c!"default" (by decide)
  have n12 := hn c!"joinmatches" (by decide)
  have n13 := hn c!"re" (by decide)
  rw [extract]
  simp only [n1, n2, n3, n4, n5, n6, n7, n8, n9, n10, n11, n12, n13, hak, decide_false, Bool.or_self, Bool.false_eq_true, if_false, if_true]

theorem extractRe_found (ctx : LoadCtx) (f : FnCall) (s t : Str) (ha : ExprAsked f s) (h : ExprFound ctx.vars ctx.patterns s t) :
    extractRe ctx f = match ctx.re t with
      | some r => .ok r
      | none => .error .reError := by
  have hs : (f.args.head?).getD (.str f.name) = .str s := by
    rcases ha with ⟨h1, rfl⟩ | ⟨as, h1⟩ <;> rw [h1] <;> rfl
  have ht : findReText ctx (.str s) = .ok t := by
    rcases h with ⟨h1, h2⟩ | ⟨h1, h2⟩
    · have : (Val.str t).truthy = true := by
        cases t with
        | nil => exact absurd rfl h1
        | cons => rfl
      simp only [findReText, h2, this, if_true, pure_ok]
    · have hp : (ctx.patterns s).getD s = t := by
        rcases h2 with h2 | ⟨h2, rfl⟩ <;> rw [h2] <;> rfl
      rcases h1 with h1 | ⟨v, h1, h3⟩
      · simp only [findReText, h1, hp, pure_ok]
      · simp only [findReText, h1, h3, hp, Bool.false_eq_true, if_false, pure_ok]
  unfold extractRe findRe
  rw [hs, ht, ok_bind]
  cases ctx.re t <;> rfl

/-- functions that are an expression -/

def IsExpr (ctx : LoadCtx) (f : FnCall) : Prop := f.name = c!"re" ∨ (f.name ∉ reserved ∧ ∃ p, ctx.patterns f.name = some p)

theorem extract_expr (ctx : LoadCtx) (orig line : Str) (n : Nat) (f : FnCall) (hf : IsExpr ctx f) (st : VarSt) :
    extract ctx orig line (n + 1) f st = (do
      let r ← extractRe ctx f
      pure { st with attrs := st.attrs ++ [.pattern r] }) := by
  rcases hf with hf | ⟨hf, p, hp⟩
  · rw [extract]
    simp only [hf]
    rfl
  · have hak : f.name ∉ argKeywords := by
      intro h
      apply hf
      revert h
      simp only [argKeywords, reserved, List.mem_cons, List.not_mem_nil, or_false]
      grind
    have hn : ∀ w ∈ reserved, f.name ≠ w := by rintro w hw e; exact hf (e ▸ hw)
    have n1 := hn c!"ignore" (by decide)
    have n2 := hn c!"_start_" (by decide)
    have n3 := hn c!"_headers_" (by decide)
    have n4 := hn c!"_end_" (by decide)
    have n5 := hn c!"_line_" (by decide)
    have n6 := hn c!"_exact_" (by decide)
    have n7 := hn c!"_exact_space_" (by decide)
    have n8 := hn c!"columns" (by decide)
    have n9 := hn c!"chain" (by decide)
    have n10 := hn c!"set" (by decide)
    have n11 := hn c!"default" (by decide)
    have n12 := hn c!"joinmatches" (by decide)
    have n13 := hn c!"re" (by decide)
    rw [extract]
    simp only [n1, n2, n3, n4, n5, n6, n7, n8, n9, n10, n11, n12, n13, hak, hp, Option.isSome_some, decide_false, Bool.or_self, Bool.false_eq_true, if_false, if_true]

theorem getAttributes_written (ctx : LoadCtx) (v : RVar)
    (hn : v.name ≠ [] ∧ (∀ c ∈ v.name, isWord c = true) ∧ (∀ c cs, v.name = c :: cs → isDigit c = false) ∧ v.name ∉ reserved)
    (content : Str) (hw : v.Written ctx content) : getAttributes ctx content = .ok (⟨v.name, [], []⟩ :: v.opts) := by
  obtain ⟨h1, h2, h3, h4⟩ := hn
  obtain ⟨items, x, y, rfl, hxy, hi, ha⟩ := hw
  refine getAttributes_pipe ctx _ _ (by simp) ?_ (.cons ⟨rfl, rfl, rfl⟩ ha)
  intro i hm
  rcases List.mem_cons.1 hm with rfl | hm
  · refine ⟨fun c hc => hxy c (by simp [hc]), ⟨h1, ?_, by simp⟩, fun c hc => hxy c (by simp [hc])⟩
    intro c hc
    refine ⟨word_space c (h2 c hc), ?_, ?_⟩
    · rintro rfl; have := h2 _ hc; revert this; decide
    · rintro rfl; have := h2 _ hc; revert this; decide
  · obtain ⟨a, b⟩ := hi i hm
    exact ⟨fun c hc => a c (by simp [hc]), b, fun c hc => a c (by simp [hc])⟩

theorem getAttributes_pipeOf (ctx : LoadCtx) (s : Str) (fs : List FnCall) (h : PipeOf ctx s fs) : getAttributes ctx s = .ok fs := by
  obtain ⟨items, hne, rfl, hi, ha⟩ := h
  refine getAttributes_pipe ctx _ _ hne ?_ ha
  intro i hm
  obtain ⟨a, b⟩ := hi i hm
  exact ⟨fun c hc => a c (by simp [hc]), b, fun c hc => a c (by simp [hc])⟩

theorem chainAttrs_of (ctx : LoadCtx) (v : Val) (fs : List FnCall) (h : ChainOf ctx v fs) : chainAttrs ctx v = .ok fs := by
  rcases h with ⟨s, rfl, h⟩ | ⟨ss, gs, rfl, h, rfl⟩
  · exact getAttributes_pipeOf ctx s fs h
  · show chainAttrs.chainList ctx (ss.map .str) = .ok gs.flatten
    induction h with
    | nil => rfl
    | @cons s g ss gs h1 _ ih =>
      simp only [List.map_cons, chainAttrs.chainList, getAttributes_pipeOf ctx s g h1, ok_bind, ih, pure_ok, List.flatten_cons]

theorem eachAttr_append (k : FnCall → VarSt → PyM VarSt) (xs ys : List FnCall) (st : VarSt) :
    eachAttr k (xs ++ ys) st = (do let s ← eachAttr k xs st; eachAttr k ys s) := by
  induction xs generalizing st with
  | nil => rfl
  | cons x xs ih =>
    simp only [List.cons_append, eachAttr]
    cases k x st with
    | error e => rfl
    | ok s => simp only [ok_bind, ih]

theorem extract_depth (ctx : LoadCtx) (orig line : Str) (n m : Nat) (f : FnCall) (hf : f.name ≠ c!"chain") (st : VarSt) :
    extract ctx orig line (n + 1) f st = extract ctx orig line (m + 1) f st := by
  rw [extract, extract]
  simp only [hf, if_false]

theorem eachAttr_depth (ctx : LoadCtx) (orig line : Str) (n m : Nat) (fs : List FnCall) (hf : ∀ f ∈ fs, f.name ≠ c!"chain") (st : VarSt) :
    eachAttr (extract ctx orig line (n + 1)) fs st = eachAttr (extract ctx orig line (m + 1)) fs st := by
  induction fs generalizing st with
  | nil => rfl
  | cons f fs ih =>
    simp only [eachAttr]
    rw [extract_depth ctx orig line n m f (hf f (by simp)) st]
    cases extract ctx orig line (m + 1) f st with
    | error e => rfl
    | ok s => simp only [ok_bind, ih (fun g hg => hf g (by simp [hg]))]

theorem extract_chain (ctx : LoadCtx) (orig line : Str) (n : Nat) (s : Str) (as : List Val) (kw : Dict Str Val) (v : Val) (fs : List FnCall)
    (hv : Dict.get? ctx.vars s = some v) (hc : ChainOf ctx v fs) (hf : ∀ f ∈ fs, f.name ≠ c!"chain") (st : VarSt) :
    extract ctx orig line (n + 2) ⟨c!"chain", .str s :: as, kw⟩ st = eachAttr (extract ctx orig line (n + 2)) fs st := by
  have hnone : v ≠ .none := by
    rintro rfl
    rcases hc with ⟨_, e, _⟩ | ⟨_, _, e, _⟩ <;> cases e
  rw [← eachAttr_depth ctx orig line n (n + 1) fs hf st]
  have h := chainAttrs_of ctx v fs hc
  rw [extract]
  show (match Dict.get? ctx.vars s with
    | none => pure st
    | some .none => pure st
    | some v => do
      let as ← chainAttrs ctx v
      eachAttr (extract ctx orig line (n + 1)) as st) = _
  rw [hv]
  cases v <;> first | exact absurd rfl hnone | (simp only [h, ok_bind])

end TTP
