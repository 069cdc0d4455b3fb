import Verif.Spec.Outputs
import Verif.Proofs.Save
/-!
# Reading of output tags
-/

namespace TTP
open Py Spec

theorem Option'_ne {β : Type} (all : Dict Str Val) (n key : Str) (v : Val) (P : Val → β → Prop) (old new : β) (h : n ≠ key) :
    Option' ((n, v) :: all) key P old new ↔ Option' all key P old new := by
  unfold Option'
  rw [Dict.get?_cons, if_neg h]

theorem Option'_eq {β : Type} (all : Dict Str Val) (key : Str) (v : Val) (P : Val → β → Prop) (old new : β) :
    Option' ((key, v) :: all) key P old new ↔ P v new := by
  unfold Option'
  rw [Dict.get?_cons, if_pos rfl]

theorem Option'_none {β : Type} (all : Dict Str Val) (key : Str) (P : Val → β → Prop) (old new : β) (h : key ∉ Dict.keys all) :
    Option' all key P old new ↔ new = old := by
  unfold Option'
  rw [(Dict.get?_eq_none_iff all key).2 h]

theorem outFunctions_ok (C : TplCtx) (fs acc r : List FnCall) :
    outFunctions C fs acc = .ok r ↔ (∀ f ∈ fs, f.name ≠ c!"functions") ∧ r = acc ++ fs.filter (fun f => C.isOutFn f.name) := by
  induction fs generalizing acc with
  | nil => simp [outFunctions, pure_ok]; exact eq_comm
  | cons f fs ih =>
    rw [outFunctions]
    by_cases h : f.name = c!"functions"
    · rw [if_pos h]
      constructor
      · intro e; cases e
      · rintro ⟨a, _⟩; exact absurd h (a f (by simp))
    · rw [if_neg h]
      by_cases h2 : C.isOutFn f.name = true
      · rw [if_pos h2, ih]
        simp [h, h2]
      · rw [if_neg h2, ih]
        simp [h, h2]

theorem oneCall_ok (ctx : LoadCtx) (n : Str) (v : Val) (f : FnCall) :
    oneCall ctx n v = .ok f ↔ ∃ fs, getAttributes ctx (n ++ c!"(" ++ pyStr v ++ c!")") = .ok (f :: fs) := by
  unfold oneCall
  have e : n ++ '(' :: (pyStr v ++ [')']) = n ++ c!"(" ++ pyStr v ++ c!")" := by simp
  rw [e]
  cases h : getAttributes ctx (n ++ c!"(" ++ pyStr v ++ c!")") with
  | error e => simp only [err_bind, reduceCtorEq, false_iff]; rintro ⟨fs, h⟩; cases h
  | ok l =>
    cases l with
    | nil => simp only [ok_bind, throw_err, reduceCtorEq, false_iff]; rintro ⟨fs, h⟩; cases h
    | cons g gs => simp only [ok_bind, pure_ok, Except.ok.injEq, List.cons.injEq]; exact ⟨fun h => ⟨gs, h, rfl⟩, fun ⟨_, h, _⟩ => h⟩

/-- one attribute -/
theorem outAttrs_iff (C : TplCtx) (all : Dict Str Val) (hw : Dict.WF all) (hlow : ∀ n ∈ Dict.keys all, lower n ∈ outOptions → lower n = n)
    (o o' : Outputter) : outAttrs C all o = .ok o' ↔ OutputOf C all o o' := by
  induction all generalizing o with
  | nil =>
    simp only [outAttrs, pure_ok, Except.ok.injEq]
    constructor
    · rintro rfl
      exact ⟨rfl, rfl, rfl, ⟨[], .nil, by simp⟩, rfl, rfl⟩
    · rintro ⟨a, b, c, ⟨fs, d1, d2⟩, e, f⟩
      cases d1
      simp only [Option', Dict.get?] at a b c
      simp only [List.flatten_nil, List.append_nil] at d2
      obtain ⟨n, fn, fm, rs, cd, sf⟩ := o
      obtain ⟨n', fn', fm', rs', cd', sf'⟩ := o'
      simp only at a b c d2 e f
      subst a b c d2 e f; rfl
  | cons p all ih =>
    obtain ⟨n, v⟩ := p
    have hw' : n ∉ Dict.keys all ∧ Dict.WF all := by
      unfold Dict.WF Dict.keys at hw ⊢
      simpa using hw
    have hl := hlow n (by simp [Dict.keys])
    have ih := fun o => ih hw'.2 (fun m hm => hlow m (by simp [Dict.keys] at hm ⊢; exact Or.inr hm)) o
    rw [outAttrs, bind_ok_iff]
    have hq : ∀ {β : Type} (key : Str) (P : Val → β → Prop) (old new : β), n ≠ key →
        (Option' ((n, v) :: all) key P old new ↔ Option' all key P old new) := fun key P old new h => Option'_ne all n key v P old new h
    by_cases hopt : lower n ∈ outOptions
    · have hln := hl hopt
      rw [hln] at hopt
      unfold outAttr
      rw [hln]
      by_cases h1 : n = c!"name"
      · subst h1
        simp only
        constructor
        · rintro ⟨o1, h, h2⟩
          obtain ⟨s, hs, h3⟩ := (bind_ok_iff _ _ _).1 h
          simp only [pure_ok, Except.ok.injEq] at h3
          subst h3
          obtain ⟨a, b, c, ⟨fs, d1, d2⟩, e, f⟩ := (ih _).1 h2
          have hv : v = .str s := by cases v <;> simp_all [asText, throw_err, pure_ok]
          refine ⟨?_, (hq _ _ _ _ (by decide)).2 b, (hq _ _ _ _ (by decide)).2 c, ⟨[] :: fs, .cons (.option hopt (by decide)) d1, by simpa using d2⟩, e, f⟩
          rw [Option'_eq]
          exact ⟨s, hv, (Option'_none _ _ _ _ _ hw'.1).1 a⟩
        · rintro ⟨a, b, c, ⟨fs, d1, d2⟩, e, f⟩
          rw [Option'_eq] at a
          obtain ⟨s, rfl, ha⟩ := a
          cases d1 with
          | cons d0 d1 =>
            refine ⟨{ o with name := some s }, rfl, (ih _).2 ⟨(Option'_none _ _ _ _ _ hw'.1).2 ha, (hq _ _ _ _ (by decide)).1 b,
              (hq _ _ _ _ (by decide)).1 c, ⟨_, d1, ?_⟩, e, f⟩⟩
            cases d0 with
            | own h => exact absurd hopt h
            | option _ _ => simpa using d2
            | other h => exact absurd hopt h
      · rw [if_neg h1]
        by_cases h2 : n = c!"returner"
        · subst h2
          simp only
          constructor
          · rintro ⟨o1, h, h2⟩
            obtain ⟨s, hs, h3⟩ := (bind_ok_iff _ _ _).1 h
            simp only [pure_ok, Except.ok.injEq] at h3
            subst h3
            obtain ⟨a, b, c, ⟨fs, d1, d2⟩, e, f⟩ := (ih _).1 h2
            have hv : v = .str s := by cases v <;> simp_all [asText, throw_err, pure_ok]
            refine ⟨(hq _ _ _ _ (by decide)).2 a, ?_, (hq _ _ _ _ (by decide)).2 c, ⟨[] :: fs, .cons (.option hopt (by decide)) d1, by simpa using d2⟩, e, f⟩
            rw [Option'_eq]
            exact ⟨s, hv, (Option'_none _ _ _ _ _ hw'.1).1 b⟩
          · rintro ⟨a, b, c, ⟨fs, d1, d2⟩, e, f⟩
            rw [Option'_eq] at b
            obtain ⟨s, rfl, ha⟩ := b
            cases d1 with
            | cons d0 d1 =>
              refine ⟨{ o with returners := commaList s }, rfl, (ih _).2 ⟨(hq _ _ _ _ (by decide)).1 a, (Option'_none _ _ _ _ _ hw'.1).2 ha,
                (hq _ _ _ _ (by decide)).1 c, ⟨_, d1, ?_⟩, e, f⟩⟩
              cases d0 with
              | own h => exact absurd hopt h
              | option _ _ => simpa using d2
              | other h => exact absurd hopt h
        · rw [if_neg h2]
          by_cases h3 : n ∈ [c!"filename", c!"format_attributes", c!"path", c!"headers"]
          · rw [if_pos h3]
            have n1 : n ≠ c!"condition" := by rintro rfl; revert h3; decide
            have n2 : n ≠ c!"functions" := by rintro rfl; revert h3; decide
            simp only [pure_ok]
            constructor
            · rintro ⟨o1, h, h2'⟩
              cases h
              obtain ⟨a, b, c, ⟨fs, d1, d2⟩, e, f⟩ := (ih _).1 h2'
              exact ⟨(hq _ _ _ _ h1).2 a, (hq _ _ _ _ h2).2 b, (hq _ _ _ _ n1).2 c, ⟨[] :: fs, .cons (.option hopt n2) d1, by simpa using d2⟩, e, f⟩
            · rintro ⟨a, b, c, ⟨fs, d1, d2⟩, e, f⟩
              cases d1 with
              | cons d0 d1 =>
                refine ⟨o, rfl, (ih _).2 ⟨(hq _ _ _ _ h1).1 a, (hq _ _ _ _ h2).1 b, (hq _ _ _ _ n1).1 c, ⟨_, d1, ?_⟩, e, f⟩⟩
                cases d0 with
                | pipe h => exact absurd rfl n2
                | own h => exact absurd hopt h
                | option _ _ => simpa using d2
                | other h => exact absurd hopt h
          · rw [if_neg h3]
            by_cases h4 : n = c!"condition"
            · subst h4
              simp only
              constructor
              · rintro ⟨o1, h, h2'⟩
                obtain ⟨s, hs, h5⟩ := (bind_ok_iff _ _ _).1 h
                simp only [pure_ok, Except.ok.injEq] at h5
                subst h5
                obtain ⟨a, b, c, ⟨fs, d1, d2⟩, e, f⟩ := (ih _).1 h2'
                obtain ⟨gs, hgs⟩ := (oneCall_ok _ _ _ _).1 hs
                refine ⟨(hq _ _ _ _ (by decide)).2 a, (hq _ _ _ _ (by decide)).2 b, ?_, ⟨[] :: fs, .cons (.option hopt (by decide)) d1, by simpa using d2⟩, e, f⟩
                rw [Option'_eq]
                exact ⟨s, gs, hgs, (Option'_none _ _ _ _ _ hw'.1).1 c⟩
              · rintro ⟨a, b, c, ⟨fs, d1, d2⟩, e, f⟩
                rw [Option'_eq] at c
                obtain ⟨g, gs, hgs, ha⟩ := c
                cases d1 with
                | cons d0 d1 =>
                  refine ⟨{ o with condition := some g.args }, (bind_ok_iff _ _ _).2 ⟨g, (oneCall_ok _ _ _ _).2 ⟨gs, hgs⟩, rfl⟩,
                    (ih _).2 ⟨(hq _ _ _ _ (by decide)).1 a, (hq _ _ _ _ (by decide)).1 b, (Option'_none _ _ _ _ _ hw'.1).2 ha, ⟨_, d1, ?_⟩, e, f⟩⟩
                  cases d0 with
                  | own h => exact absurd hopt h
                  | option _ _ => simpa using d2
                  | other h => exact absurd hopt h
            · rw [if_neg h4]
              have h5 : n = c!"functions" := by
                simp only [outOptions, List.mem_cons, List.not_mem_nil, or_false] at hopt h3
                grind
              subst h5
              simp only
              constructor
              · rintro ⟨o1, h, h2'⟩
                obtain ⟨s, hs, h5⟩ := (bind_ok_iff _ _ _).1 h
                obtain ⟨gs, hgs, h6⟩ := (bind_ok_iff _ _ _).1 h5
                obtain ⟨r, hr, h7⟩ := (bind_ok_iff _ _ _).1 h6
                simp only [pure_ok, Except.ok.injEq] at h7
                subst h7
                obtain ⟨x, rfl⟩ := (outFunctions_ok _ _ _ _).1 hr
                have hv : v = .str s := by cases v <;> simp_all [asText, throw_err, pure_ok]
                subst hv
                obtain ⟨a, b, c, ⟨fs, d1, d2⟩, e, f⟩ := (ih _).1 h2'
                exact ⟨(hq _ _ _ _ (by decide)).2 a, (hq _ _ _ _ (by decide)).2 b, (hq _ _ _ _ (by decide)).2 c, ⟨_ :: fs, .cons (.pipe hgs x) d1, by simpa using d2⟩, e, f⟩
              · rintro ⟨a, b, c, ⟨fs, d1, d2⟩, e, f⟩
                cases d1 with
                | cons d0 d1 =>
                  cases d0 with
                  | own h => exact absurd hopt h
                  | option _ h => exact absurd rfl h
                  | other h => exact absurd hopt h
                  | @pipe s gs hgs hx =>
                    refine ⟨{ o with funcs := o.funcs ++ gs.filter (fun f => C.isOutFn f.name) }, ?_,
                      (ih _).2 ⟨(hq _ _ _ _ (by decide)).1 a, (hq _ _ _ _ (by decide)).1 b, (hq _ _ _ _ (by decide)).1 c, ⟨_, d1, by simpa using d2⟩, e, f⟩⟩
                    show (do
                      let fs ← getAttributes C.load s
                      let r ← outFunctions C fs o.funcs
                      pure { o with funcs := r } : PyM Outputter) = _
                    rw [hgs, ok_bind, (outFunctions_ok _ _ _ _).2 ⟨hx, rfl⟩]
                    rfl
    · have hn : n ∉ outOptions := by
        intro h
        apply hopt
        have : lower n = n := by
          have hall : ∀ m ∈ outOptions, lower m = m := by decide
          exact hall n h
        rw [this]; exact h
      have q1 : n ≠ c!"name" := by rintro rfl; exact hn (by decide)
      have q2 : n ≠ c!"returner" := by rintro rfl; exact hn (by decide)
      have q3 : n ≠ c!"condition" := by rintro rfl; exact hn (by decide)
      have q4 : n ≠ c!"functions" := by rintro rfl; exact hn (by decide)
      have l : ∀ m ∈ outOptions, lower n ≠ m := by rintro m hm rfl; exact hopt hm
      unfold outAttr
      rw [if_neg (l _ (by decide)), if_neg (l _ (by decide)), if_neg (by
        intro h
        simp only [List.mem_cons, List.not_mem_nil, or_false] at h
        rcases h with h | h | h | h <;> exact l _ (by decide) h), if_neg (l _ (by decide)), if_neg (l _ (by decide))]
      by_cases hf : C.isOutFn n = true
      · rw [if_pos hf]
        constructor
        · rintro ⟨o1, h, h2'⟩
          obtain ⟨s, hs, h5⟩ := (bind_ok_iff _ _ _).1 h
          simp only [pure_ok, Except.ok.injEq] at h5
          subst h5
          obtain ⟨a, b, c, ⟨fs, d1, d2⟩, e, f⟩ := (ih _).1 h2'
          obtain ⟨gs, hgs⟩ := (oneCall_ok _ _ _ _).1 hs
          exact ⟨(hq _ _ _ _ q1).2 a, (hq _ _ _ _ q2).2 b, (hq _ _ _ _ q3).2 c, ⟨[s] :: fs, .cons (.own hn hf hgs) d1, by simpa using d2⟩, e, f⟩
        · rintro ⟨a, b, c, ⟨fs, d1, d2⟩, e, f⟩
          cases d1 with
          | cons d0 d1 =>
            cases d0 with
            | pipe h => exact absurd rfl q4
            | option h _ => exact absurd h hn
            | other _ h => rw [hf] at h; cases h
            | @own _ _ g gs _ _ hgs =>
              exact ⟨{ o with funcs := o.funcs ++ [g] }, (bind_ok_iff _ _ _).2 ⟨g, (oneCall_ok _ _ _ _).2 ⟨gs, hgs⟩, rfl⟩,
                (ih _).2 ⟨(hq _ _ _ _ q1).1 a, (hq _ _ _ _ q2).1 b, (hq _ _ _ _ q3).1 c, ⟨_, d1, by simpa using d2⟩, e, f⟩⟩
      · rw [if_neg hf]
        have hf' : C.isOutFn n = false := by simpa using hf
        constructor
        · rintro ⟨o1, h, h2'⟩
          cases h
          obtain ⟨a, b, c, ⟨fs, d1, d2⟩, e, f⟩ := (ih _).1 h2'
          exact ⟨(hq _ _ _ _ q1).2 a, (hq _ _ _ _ q2).2 b, (hq _ _ _ _ q3).2 c, ⟨[] :: fs, .cons (.other hn hf') d1, by simpa using d2⟩, e, f⟩
        · rintro ⟨a, b, c, ⟨fs, d1, d2⟩, e, f⟩
          cases d1 with
          | cons d0 d1 =>
            cases d0 with
            | pipe h => exact absurd rfl q4
            | option h _ => exact absurd h hn
            | own _ h _ => rw [hf'] at h; cases h
            | other _ _ =>
              exact ⟨o, rfl, (ih _).2 ⟨(hq _ _ _ _ q1).1 a, (hq _ _ _ _ q2).1 b, (hq _ _ _ _ q3).1 c, ⟨_, d1, by simpa using d2⟩, e, f⟩⟩

end TTP
