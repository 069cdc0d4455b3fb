import Verif.Props.Rich
import Verif.Spec.ArgVars
/-!
# C163: arguments that name template variables
-/

set_option synthInstance.maxSize 4000

namespace TTP
open Py Spec



theorem extractAll_args (ctx : LoadCtx) (orig line : Str) (n : Nat) (fs : List FnCall) (hf : ∀ f ∈ fs, f.name ∈ argFunctions) (st : VarSt) :
    ((∀ f ∈ fs, ∀ a ∈ f.args, ¬ IsStructure a) → extractAll ctx orig line (n + 1) fs st =
      .ok { st with attrs := st.attrs ++ fs.map (fun f => .fn { f with args := f.args.map (argTaken ctx.vars) }) }) ∧
    ((∃ f ∈ fs, ∃ a ∈ f.args, IsStructure a) → extractAll ctx orig line (n + 1) fs st = .error .typeError) := by
  induction fs generalizing st with
  | nil => exact ⟨fun _ => by simp [extractAll, eachAttr, pure_ok], by simp⟩
  | cons f fs ih =>
    have h0 := extract_arg ctx orig line n f (hf f (by simp)) st
    have ih' := ih (fun g hg => hf g (by simp [hg]))
    unfold extractAll at ih' ⊢
    constructor
    · intro h
      rw [(argsFromVars_taken ctx.vars f.args).1 (h f (by simp)), ok_bind] at h0
      simp only [eachAttr, h0, pure_ok, ok_bind]
      rw [(ih' _).1 (fun g hg => h g (by simp [hg]))]
      simp
    · rintro ⟨g, hg, a, ha, hs⟩
      by_cases hb : ∃ a ∈ f.args, IsStructure a
      · rw [(argsFromVars_taken ctx.vars f.args).2 hb, err_bind] at h0
        simp only [eachAttr, h0, err_bind]
      · rw [(argsFromVars_taken ctx.vars f.args).1 (fun a ha hs => hb ⟨a, ha, hs⟩), ok_bind] at h0
        rcases List.mem_cons.1 hg with rfl | hg
        · exact absurd ⟨a, ha, hs⟩ hb
        · simp only [eachAttr, h0, pure_ok, ok_bind]
          exact (ih' _).2 ⟨g, hg, a, ha, hs⟩

end TTP

namespace Props
open Py Spec TTP

/-- C163. A variable of a template line with any of the functions `contains`, `equal`, `notequal`, `exclude`, their kin with expressions and
`sformat`: each argument that is the name of a template variable is replaced by its value when the template is loaded, other arguments are taken as
written, named arguments are not looked up. An argument that is a list or a dictionary raises `TypeError`. -/
theorem C163_arguments (ctx : LoadCtx) (v : RVar) (hn : v.name ≠ [] ∧ (∀ c ∈ v.name, isWord c = true) ∧ (∀ c cs, v.name = c :: cs → isDigit c = false) ∧ v.name ∉ reserved)
    (hf : ∀ f ∈ v.opts, f.name ∈ argFunctions) (line content : Str) (hw : v.Written ctx content) (d : Dict Key Val) :
    ((∀ f ∈ v.opts, ∀ a ∈ f.args, ¬ IsStructure a) → loadVar ctx (.str c!"_Not_Given_") line content d =
      .ok (⟨v.name, none, v.opts.map (fun f => .fn { f with args := f.args.map (argTaken ctx.vars) })⟩, d, false)) ∧
    ((∃ f ∈ v.opts, ∃ a ∈ f.args, IsStructure a) → loadVar ctx (.str c!"_Not_Given_") line content d = .error .typeError) := by
  obtain ⟨h1, h2, h3, h4⟩ := hn
  have hattrs : getAttributes ctx content = .ok (⟨v.name, [], []⟩ :: v.opts) := by
    obtain ⟨items, x, y, rfl, hxy, hi, ha⟩ := hw
    refine getAttributes_pipe ctx _ _ (by simp) ?_ (.cons ⟨rfl, rfl, rfl⟩ ha)
    intro i hm
    rcases List.mem_cons.1 hm with rfl | hm
    · refine ⟨fun c hc => hxy c (by simp [hc]), ⟨h1, ?_, by simp⟩, fun c hc => hxy c (by simp [hc])⟩
      intro c hc
      refine ⟨word_space c (h2 c hc), ?_, ?_⟩
      · rintro rfl; have := h2 _ hc; revert this; decide
      · rintro rfl; have := h2 _ hc; revert this; decide
    · obtain ⟨a, b⟩ := hi i hm
      exact ⟨fun c hc => a c (by simp [hc]), b, fun c hc => a c (by simp [hc])⟩
  obtain ⟨r0, rs, r1, _⟩ := not_reserved _ h4
  have hg : groupDefault (.str c!"_Not_Given_") v.name d = d := by simp [groupDefault]
  have hall := extractAll_args ctx v.name line 999 v.opts hf ⟨[], d, false⟩
  unfold loadVar
  simp only [hattrs, ok_bind, sanitize_word v.name h2 h3, rs, r0, if_false, hg, List.nil_append, r1, pure_ok]
  rw [show chainDepth = 999 + 1 from rfl]
  constructor
  · intro h
    rw [hall.1 h]
    simp only [ok_bind, List.nil_append]
  · intro h
    rw [hall.2 h, err_bind]

namespace Ex
/-- `name | contains("pat", "x") | equal(["a"])` without and with the second function -/
def argVar (b : Bool) : RVar := ⟨c!"name", ⟨c!"contains", [.str c!"pat", .str c!"x"], []⟩ :: if b then [⟨c!"equal", [.list [.str c!"a"]], []⟩] else []⟩
/-- `pat` is a template variable -/
def argCtx : LoadCtx := { ctx0 with vars := [(c!"pat", .str c!"Gi")], eval := Args.eval (fun s => if s = c!"[\"a\"]" then some ([.list [.str c!"a"]], []) else none) }
end Ex

/-- the hypotheses are met -/
example : loadVar Ex.argCtx (.str c!"_Not_Given_") [] c!" name | contains(\"pat\", \"x\") " [] =
    .ok (⟨c!"name", none, [.fn ⟨c!"contains", [.str c!"Gi", .str c!"x"], []⟩]⟩, [], false) := by
  refine (C163_arguments Ex.argCtx (Ex.argVar false) ⟨by decide, by decide, by intro c cs e; cases e; decide, by decide⟩ (by decide) [] c!" name | contains(\"pat\", \"x\") "
    ⟨[(c!" ", ⟨c!"contains", some c!"\"pat\", \"x\""⟩, c!" ")], c!" ", c!" ", by decide, by decide, ?_, .cons ⟨rfl, Or.inr ⟨by decide, by decide +kernel⟩⟩ .nil⟩ []).1 ?_
  · intro i hi
    simp only [List.mem_singleton] at hi
    subst hi
    exact ⟨by decide, by decide, by decide, by decide⟩
  · intro f hf a ha
    have : f = ⟨c!"contains", [.str c!"pat", .str c!"x"], []⟩ := by simpa [Ex.argVar] using hf
    subst this
    simp only [List.mem_cons, List.not_mem_nil, or_false] at ha
    rcases ha with rfl | rfl <;> rintro (⟨_, e⟩ | ⟨_, e⟩) <;> cases e

/-- a list as an argument -/
example : loadVar Ex.argCtx (.str c!"_Not_Given_") [] c!" name | equal([\"a\"]) " [] = .error .typeError := by decide +kernel

end Props
