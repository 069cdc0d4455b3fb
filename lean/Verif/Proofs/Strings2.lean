import Verif.Proofs.Strings
import Verif.Spec.Strings
/-! # Strings of the results: the machine and the parser -/

namespace TTP
open Py Spec

variable {P : Str → Prop}

theorem popVar_allStr {m : Str} {res : Val} {o : Option (Val × Val)} (hr : AllStr P res) (e : popVar m res = .ok o) :
    ∀ v r, o = some (v, r) → AllStr P r := by
  unfold popVar at e
  split at e
  · split at e
    · simp only [pure_ok, Except.ok.injEq] at e
      intro v r ho
      rw [← e] at ho
      simp only [Option.some.injEq, Prod.mk.injEq] at ho
      rw [← ho.2]; exact allStrD_erase hr _
    · simp only [pure_ok, Except.ok.injEq] at e
      intro v r ho; rw [← e] at ho; cases ho
  · simp only [bind_ok_iff] at e
    obtain ⟨b, _, e⟩ := e
    split at e
    · cases e
    · simp only [pure_ok, Except.ok.injEq] at e
      intro v r ho; rw [← e] at ho; cases ho

theorem substVar_allStr {vars : Dict Str Val} {m : Str} {c c' : Dict Str Val} {res res' : Val} {it : Str} {o : Option Str}
    (hr : AllStr P res) (e : substVar vars m c res it = .ok (c', res', o)) : AllStr P res' := by
  simp only [substVar, bind_ok_iff] at e
  obtain ⟨p, e1, e2⟩ := e
  have hp := popVar_allStr hr e1
  split at e2
  · have := hp _ _ rfl
    split at e2 <;> simp only [pure_ok, Except.ok.injEq, Prod.mk.injEq] at e2 <;> rw [← e2.2.1] <;> exact this
  · repeat' split at e2
    all_goals first
      | cases e2; done
      | (simp only [pure_ok, Except.ok.injEq, Prod.mk.injEq] at e2; rw [← e2.2.1]; exact hr)

theorem substVars_allStr {vars : Dict Str Val} (ms : List Str) {c c' : Dict Str Val} {res res' : Val} {it : Str} {o : Option Str}
    (hr : AllStr P res) (e : substVars vars ms c res it = .ok (c', res', o)) : AllStr P res' := by
  induction ms generalizing c res it with
  | nil => simp only [substVars, pure_ok, Except.ok.injEq, Prod.mk.injEq] at e; rw [← e.2.1]; exact hr
  | cons m ms ih =>
    simp only [substVars, bind_ok_iff] at e
    obtain ⟨⟨c1, r1, o1⟩, e1, e2⟩ := e
    have h1 := substVar_allStr hr e1
    dsimp only at e2
    split at e2
    · exact ih h1 e2
    · simp only [pure_ok, Except.ok.injEq, Prod.mk.injEq] at e2; rw [← e2.2.1]; exact h1

theorem formPath_allStr {vars : Dict Str Val} (path : List Str) {c c' : Dict Str Val} {res res' : Val}
    {o : Option (List PItem)} (hr : AllStr P res) (e : formPath vars path c res = .ok (c', res', o)) : AllStr P res' := by
  induction path generalizing c res c' res' o with
  | nil => simp only [formPath, pure_ok, Except.ok.injEq, Prod.mk.injEq] at e; rw [← e.2.1]; exact hr
  | cons m ms ih =>
    simp only [formPath, bind_ok_iff] at e
    obtain ⟨⟨c1, r1, o1⟩, e1, e2⟩ := e
    have h1 := substVars_allStr _ hr e1
    dsimp only at e2
    split at e2
    · simp only [pure_ok, Except.ok.injEq, Prod.mk.injEq] at e2; rw [← e2.2.1]; exact h1
    · simp only [bind_ok_iff] at e2
      obtain ⟨⟨c2, r2, o2⟩, e3, e4⟩ := e2
      simp only [pure_ok, Except.ok.injEq, Prod.mk.injEq] at e4
      rw [← e4.2.1]; exact ih h1 e3

variable {G : FnCall → Prop}

theorem runFns_ok {gf : GroupFns} (hg : GroupFnsKeep P gf G) (fs : List FnCall) (hf : ∀ f ∈ fs, G f) {ms ms' : MS} {v : Val}
    {o : Option Val} (hm : MSOk P G ms) (hv : AllStr P v) (e : runFns gf fs ms v = .ok (ms', o)) :
    MSOk P G ms' ∧ ∀ w, o = some w → AllStr P w := by
  induction fs generalizing ms v with
  | nil =>
    simp only [runFns, pure_ok, Except.ok.injEq, Prod.mk.injEq] at e
    rw [← e.1, ← e.2]
    exact ⟨hm, fun w hw => by injection hw with hw; rw [← hw]; exact hv⟩
  | cons f fs ih =>
    simp only [runFns, bind_ok_iff] at e
    obtain ⟨⟨m1, v1, fl⟩, e1, e2⟩ := e
    have h1 := hg f (hf f List.mem_cons_self) ms v m1 v1 fl hm hv e1
    dsimp only at e2
    split at e2
    · simp only [pure_ok, Except.ok.injEq, Prod.mk.injEq] at e2
      rw [← e2.1, ← e2.2]; exact ⟨h1.1, by simp⟩
    · exact ih (fun f h => hf f (List.mem_cons_of_mem _ h)) h1.1 h1.2 e2

theorem preMerge_ok {toInt : Bool} {ms ms' : MS} {d : Dict Key Val} {v : Val} (hm : MSOk P G ms) (hd : AllStrD P d)
    (e : preMerge toInt ms d = .ok (ms', v)) : MSOk P G ms' ∧ AllStr P v := by
  unfold preMerge at e
  split at e
  · simp only [bind_ok_iff] at e
    obtain ⟨⟨c, r, p⟩, e1, e2⟩ := e
    have hr : AllStr P r := formPath_allStr _ (res := .dict d) hd e1
    dsimp only at e2
    split at e2
    · simp only [bind_ok_iff] at e2
      obtain ⟨⟨R, x⟩, e3, e4⟩ := e2
      simp only [pure_ok, Except.ok.injEq, Prod.mk.injEq] at e4
      have := reconstruct_allStr toInt r hr _ _ R x hm.results e3
      rw [← e4.1, ← e4.2]
      exact ⟨⟨this.1, hm.record, hm.defaults, hm.functions, hm.vars, hm.gvars⟩, this.2⟩
    · simp only [pure_ok, Except.ok.injEq, Prod.mk.injEq] at e2
      rw [← e2.1, ← e2.2]
      exact ⟨⟨hm.results, hm.record, hm.defaults, hm.functions, hm.vars, hm.gvars⟩, hr⟩
  · simp only [pure_ok, Except.ok.injEq, Prod.mk.injEq] at e
    rw [← e.1, ← e.2]; exact ⟨hm, hd⟩

theorem postPath_ok {ms ms' : MS} {v : Val} {o : Option (Val × List PItem)} (hm : MSOk P G ms) (hv : AllStr P v)
    (e : postPath ms v = .ok (ms', o)) : MSOk P G ms' ∧ ∀ w p, o = some (w, p) → AllStr P w := by
  simp only [postPath, bind_ok_iff] at e
  obtain ⟨⟨c, r, p⟩, e1, e2⟩ := e
  have hr : AllStr P r := formPath_allStr _ hv e1
  dsimp only at e2
  split at e2
  · simp only [pure_ok, Except.ok.injEq, Prod.mk.injEq] at e2
    rw [← e2.1, ← e2.2]
    refine ⟨⟨hm.results, hm.record, hm.defaults, hm.functions, hm.vars, hm.gvars⟩, ?_⟩
    intro w p hw
    simp only [Option.some.injEq, Prod.mk.injEq] at hw
    rw [← hw.1]; exact hr
  · simp only [pure_ok, Except.ok.injEq, Prod.mk.injEq] at e2
    rw [← e2.1, ← e2.2]
    exact ⟨⟨hm.results, hm.record, hm.defaults, hm.functions, hm.vars, hm.gvars⟩, by simp⟩

theorem flush_ok {toInt : Bool} {gf : GroupFns} (hg : GroupFnsKeep P gf G) {ms ms' : MS} (hm : MSOk P G ms)
    (e : flush toInt gf ms = .ok ms') : MSOk P G ms' := by
  simp only [flush, processgrp, bind_ok_iff] at e
  obtain ⟨⟨m2, o⟩, ⟨⟨m1, v1⟩, e1, ⟨⟨m3, o3⟩, e3, e4⟩⟩, e2⟩ := e
  have h1 := preMerge_ok hm (allStrD_addDefaults hm.record hm.defaults) e1
  have h3 := runFns_ok hg _ h1.1.functions h1.1 h1.2 e3
  dsimp only at e4
  have h2 : MSOk P G m2 ∧ ∀ w p, o = some (w, p) → AllStr P w := by
    split at e4
    · simp only [pure_ok, Except.ok.injEq, Prod.mk.injEq] at e4
      rw [← e4.1, ← e4.2]; exact ⟨h3.1, by simp⟩
    · exact postPath_ok h3.1 (h3.2 _ rfl) e4
  dsimp only at e2
  split at e2
  · simp only [pure_ok, Except.ok.injEq] at e2; rw [← e2]; exact h2.1
  · simp only [bind_ok_iff] at e2
    obtain ⟨R, e5, e6⟩ := e2
    simp only [pure_ok, Except.ok.injEq] at e6
    rw [← e6]
    have := h2.1
    exact ⟨save_allStr _ _ _ (h2.2 _ _ rfl) _ _ _ this.results e5, this.record, this.defaults, this.functions, this.vars, this.gvars⟩

/-- what is known about a match that comes into the machine -/
structure HitOk (P : Str → Prop) (G : FnCall → Prop) (h : Hit) : Prop where
  data : ∀ d, h.2 = some d → AllStrD P d
  runs : AllStrD P h.1.runs
  funcs : ∀ f ∈ h.1.funcs, G f
  joins : h.1.action = .join → ∀ j, (j = ['\n'] ∨ ∃ v ∈ h.1.vfuncs, ∃ f ∈ v.2, f.name = c!"joinmatches" ∧ f.args.head? = some (.str j)) →
    ∀ a b, P a → P b → P (a ++ (j ++ b))

theorem doStart_ok {toInt : Bool} {gf : GroupFns} (hg : GroupFnsKeep P gf G) {re : RE} {d : Dict Key Val} {ms ms' : MS}
    (hm : MSOk P G ms) (hd : AllStrD P d) (hr : AllStrD P re.runs) (hf : ∀ f ∈ re.funcs, G f)
    (e : doStart toInt gf re d ms = .ok ms') : MSOk P G ms' := by
  simp only [doStart, bind_ok_iff] at e
  obtain ⟨m1, e1, e2⟩ := e
  have h1 := flush_ok hg (ms := { ms with started := trace re ms.started })
    ⟨hm.results, hm.record, hm.defaults, hm.functions, hm.vars, hm.gvars⟩ e1
  simp only [pure_ok, Except.ok.injEq] at e2
  rw [← e2]
  exact ⟨h1.results, hd, hr, hf, h1.vars, h1.gvars⟩

theorem lateStart_ok {toInt : Bool} {gf : GroupFns} (hg : GroupFnsKeep P gf G) {re : RE} {d : Dict Key Val} {ms ms' : MS}
    (hm : MSOk P G ms) (hd : AllStrD P d) (hr : AllStrD P re.runs) (hf : ∀ f ∈ re.funcs, G f)
    (e : lateStart toInt gf re d ms = .ok ms') : MSOk P G ms' := by
  unfold lateStart at e
  split at e
  · simp only [bind_ok_iff] at e
    obtain ⟨m1, e1, e2⟩ := e
    have h1 := doStart_ok hg hm hd hr hf e1
    simp only [pure_ok, Except.ok.injEq] at e2
    rw [← e2]
    exact ⟨h1.results, h1.record, trivial, h1.functions, h1.vars, h1.gvars⟩
  · simp only [pure_ok, Except.ok.injEq] at e; rw [← e]; exact hm

theorem joinVal_allStr {jc : Val} (hj : ∀ j, jc = .str j → ∀ a b, P a → P b → P (a ++ (j ++ b))) {old : Option Val} {new w : Val}
    (hn : AllStr P new) (ho : ∀ v, old = some v → AllStr P v) (e : joinVal jc old new = .ok w) : AllStr P w := by
  unfold joinVal at e
  split at e
  · simp only [pure_ok, Except.ok.injEq] at e; rw [← e]; exact hn
  · split at e
    · simp only [pure_ok, Except.ok.injEq] at e; rw [← e]
      exact hj _ rfl _ _ (ho _ rfl) hn
    · cases e
  · have := ho _ rfl
    split at e
    · simp only [pure_ok, Except.ok.injEq] at e; rw [← e]
      exact (allStrL_iff _).2 (fun x hx => by
        rcases List.mem_append.1 hx with hx | hx
        · exact (allStrL_iff _).1 this x hx
        · exact (allStrL_iff _).1 hn x hx)
    · simp only [pure_ok, Except.ok.injEq] at e; rw [← e]
      exact allStrL_snoc this hn
  · simp only [pure_ok, Except.ok.injEq] at e; rw [← e]
    exact ⟨ho _ rfl, hn, trivial⟩

theorem joinAll_allStr {jc : Val} (hj : ∀ j, jc = .str j → ∀ a b, P a → P b → P (a ++ (j ++ b))) (d : Dict Key Val)
    {r out : Dict Key Val} (hd : AllStrD P d) (hr : AllStrD P r) (e : joinAll jc d r = .ok out) : AllStrD P out := by
  induction d generalizing r with
  | nil => simp only [joinAll, pure_ok, Except.ok.injEq] at e; rw [← e]; exact hr
  | cons kv d ih =>
    obtain ⟨k, v⟩ := kv
    simp only [joinAll, bind_ok_iff] at e
    obtain ⟨w, e1, e2⟩ := e
    exact ih hd.2 (allStrD_set hr k (joinVal_allStr hj hd.1 (fun x hx => allStrD_get hr hx) e1)) e2

theorem joinArg_cases (cur : Val) (fns : List FnCall) :
    joinArg cur fns = cur ∨ ∃ f ∈ fns, f.name = c!"joinmatches" ∧ f.args.head? = some (joinArg cur fns) := by
  induction fns with
  | nil => exact .inl rfl
  | cons f fs ih =>
    unfold joinArg
    split
    · rename_i hn
      cases ha : f.args.head? with
      | none => exact .inl rfl
      | some a => exact .inr ⟨f, List.mem_cons_self, hn, by simp [ha]⟩
    · rcases ih with ih | ⟨f', h1, h2⟩
      · exact .inl ih
      · exact .inr ⟨f', List.mem_cons_of_mem _ h1, h2⟩

theorem joinChar_cases (vf : Dict Str (List FnCall)) (d : Dict Key Val) :
    joinChar vf d = .str ['\n'] ∨ ∃ v ∈ vf, ∃ f ∈ v.2, f.name = c!"joinmatches" ∧ f.args.head? = some (joinChar vf d) := by
  unfold joinChar
  generalize hc : (Val.str ['\n']) = c0
  have : ∀ cur, (cur = c0 ∨ ∃ v ∈ vf, ∃ f ∈ v.2, f.name = c!"joinmatches" ∧ f.args.head? = some cur) →
      (let out := d.foldl (fun cur (kv : Key × Val) =>
        match kv.1 with
        | .s name => match Dict.get? vf name with
          | some fns => joinArg cur fns
          | none => cur
        | .i _ => cur) cur
      out = c0 ∨ ∃ v ∈ vf, ∃ f ∈ v.2, f.name = c!"joinmatches" ∧ f.args.head? = some out) := by
    induction d with
    | nil => intro cur h; exact h
    | cons kv d ih =>
      intro cur h
      simp only [List.foldl_cons]
      apply ih
      split
      · split
        · rename_i fns hg
          rcases joinArg_cases cur fns with h1 | ⟨f, h1, h2, h3⟩
          · rw [h1]; exact h
          · exact .inr ⟨_, Dict.mem_of_get? _ _ _ hg, f, h1, h2, h3⟩
        · exact h
      · exact h
  exact this c0 (.inl rfl)

theorem doAction_ok {toInt : Bool} {gf : GroupFns} (hg : GroupFnsKeep P gf G) {re : RE} {d : Dict Key Val} {ms ms' : MS}
    (hm : MSOk P G ms) (hh : HitOk P G (re, some d)) (e : doAction toInt gf re d ms = .ok ms') : MSOk P G ms' := by
  have hd := hh.data d rfl
  unfold doAction at e
  split at e
  · exact doStart_ok hg hm hd hh.runs hh.funcs e
  · exact doStart_ok hg hm (d := []) trivial hh.runs hh.funcs e
  · unfold doAdd at e
    split at e
    · simp only [pure_ok, Except.ok.injEq] at e; rw [← e]
      exact ⟨hm.results, allStrD_update hd hm.record, hm.defaults, hm.functions, hm.vars, hm.gvars⟩
    · exact lateStart_ok hg hm hd hh.runs hh.funcs e
  · rename_i ha
    unfold doJoin at e
    split at e
    · simp only [bind_ok_iff] at e
      obtain ⟨r, e1, e2⟩ := e
      simp only [pure_ok, Except.ok.injEq] at e2; rw [← e2]
      refine ⟨hm.results, joinAll_allStr ?_ d hd hm.record e1, hm.defaults, hm.functions, hm.vars, hm.gvars⟩
      intro j hj
      apply hh.joins ha
      rcases joinChar_cases re.vfuncs d with h | ⟨v, h1, f, h2, h3, h4⟩
      · left; rw [hj] at h; injection h
      · right; exact ⟨v, h1, f, h2, h3, by rw [h4, hj]⟩
    · exact lateStart_ok hg hm hd hh.runs hh.funcs e
  · unfold doEnd at e
    split at e
    · split at e
      · cases e
      · split at e <;> simp only [pure_ok, Except.ok.injEq] at e <;> rw [← e]
        · exact hm
        · exact ⟨hm.results, hm.record, hm.defaults, hm.functions, hm.vars, hm.gvars⟩
    · simp only [pure_ok, Except.ok.injEq] at e; rw [← e]
      exact ⟨hm.results, hm.record, hm.defaults, hm.functions, hm.vars, hm.gvars⟩

theorem applyHit_ok {toInt : Bool} {gf : GroupFns} (hg : GroupFnsKeep P gf G) {h : Hit} {ms ms' : MS}
    (hm : MSOk P G ms) (hh : HitOk P G h) (e : applyHit toInt gf ms h = .ok ms') : MSOk P G ms' := by
  obtain ⟨re, o⟩ := h
  unfold applyHit at e
  split at e
  · simp only [pure_ok, Except.ok.injEq] at e; rw [← e]
    exact ⟨hm.results, hm.record, hm.defaults, hm.functions, hm.vars, hm.gvars⟩
  · rename_i d ho
    dsimp only at ho
    subst ho
    split at e
    · simp only [pure_ok, Except.ok.injEq] at e; rw [← e]; exact hm
    · split at e
      · split at e
        · refine doAction_ok hg ?_ hh e
          exact ⟨hm.results, hm.record, hm.defaults, hm.functions, hm.vars, hm.gvars⟩
        · simp only [pure_ok, Except.ok.injEq] at e; rw [← e]; exact hm
      · exact doAction_ok hg hm hh e

theorem steps_ok {toInt : Bool} {gf : GroupFns} (hg : GroupFnsKeep P gf G) (raw : List (List Hit)) {ms ms' : MS}
    (hm : MSOk P G ms) (hh : ∀ hs ∈ raw, ∀ h ∈ hs, HitOk P G h) (e : steps toInt gf ms raw = .ok ms') : MSOk P G ms' := by
  induction raw generalizing ms with
  | nil => simp only [steps, pure_ok, Except.ok.injEq] at e; rw [← e]; exact hm
  | cons hs raw ih =>
    simp only [steps, bind_ok_iff] at e
    obtain ⟨m1, e1, e2⟩ := e
    refine ih ?_ (fun x hx => hh x (List.mem_cons_of_mem _ hx)) e2
    unfold step at e1
    split at e1
    · cases e1
    · rename_i h hs'
      exact applyHit_ok hg hm (hh hs List.mem_cons_self h (select_class _ _ _ hs').1) e1

theorem pickVars_allStr {vars : Dict Str Val} (hv : ValsOk P vars) (names : List Str) : AllStrD P (pickVars vars names) := by
  unfold pickVars
  have : ∀ acc : Dict Key Val, AllStrD P acc → AllStrD P (names.foldl (fun acc n => match Dict.get? vars n with
    | some v => Dict.set acc (.s n) v
    | none => acc) acc) := by
    induction names with
    | nil => exact fun acc h => h
    | cons n ns ih =>
      intro acc h
      simp only [List.foldl_cons]
      apply ih
      split
      · rename_i v hg
        exact allStrD_set h _ (hv _ (Dict.mem_of_get? _ _ _ hg))
      · exact h
  exact this [] trivial

theorem saveVars_ok {toInt : Bool} {vtr : Dict Str (List Str)} {ms ms' : MS} (hm : MSOk P G ms)
    (e : saveVars toInt vtr ms = .ok ms') : MSOk P G ms' := by
  simp only [saveVars, bind_ok_iff] at e
  obtain ⟨m1, e1, e2⟩ := e
  simp only [pure_ok, Except.ok.injEq] at e2
  rw [← e2]
  have : MSOk P G m1 := by
    clear e2
    generalize sorted (fun a b => strLe a.1 b.1) vtr = l at e1
    induction l generalizing ms with
    | nil => simp only [saveVarsAll, pure_ok, Except.ok.injEq] at e1; rw [← e1]; exact hm
    | cons x l ih =>
      obtain ⟨p, names⟩ := x
      simp only [saveVarsAll, bind_ok_iff] at e1
      obtain ⟨m2, e3, e4⟩ := e1
      refine ih ?_ e4
      unfold saveVarsAt at e3
      split at e3
      · simp only [pure_ok, Except.ok.injEq] at e3; rw [← e3]; exact hm
      · simp only [bind_ok_iff] at e3
        obtain ⟨⟨c, r, o⟩, e5, e6⟩ := e3
        have hr : AllStr P r := formPath_allStr _ (res := .dict (pickVars ms.vars names)) (pickVars_allStr hm.vars names) e5
        dsimp only at e6
        split at e6
        · simp only [bind_ok_iff] at e6
          obtain ⟨R, e7, e8⟩ := e6
          simp only [pure_ok, Except.ok.injEq] at e8
          rw [← e8]
          exact ⟨save_allStr _ _ _ hr _ _ _ hm.results e7, hm.record, hm.defaults, hm.functions, hm.vars, hm.gvars⟩
        · simp only [pure_ok, Except.ok.injEq] at e6
          rw [← e6]
          exact ⟨hm.results, hm.record, hm.defaults, hm.functions, hm.vars, hm.gvars⟩
  exact ⟨this.results, trivial, trivial, by simp [Record.empty], this.vars, this.gvars⟩

theorem makeResults_ok {toInt : Bool} {gf : GroupFns} (hg : GroupFnsKeep P gf G) {vtr : Dict Str (List Str)}
    {vars gvars : Dict Str Val} (hv : ValsOk P vars) (hgv : ValsOk P gvars) (raw : List (List (List Hit)))
    (hh : ∀ x ∈ raw, ∀ hs ∈ x, ∀ h ∈ hs, HitOk P G h) {main : Val} (hm : AllStr P main) {ms : MS}
    (e : makeResults toInt gf vtr vars gvars raw main = .ok ms) : MSOk P G ms := by
  simp only [makeResults] at e
  have e' : ((if raw.isEmpty = true then pure ⟨main, [], [], Record.empty, [], vars, gvars⟩
      else saveVars toInt vtr ⟨main, [], [], Record.empty, [], vars, gvars⟩) >>= fun q =>
      steps toInt gf q raw.flatten >>= fun m => flush toInt gf m) = .ok ms := by
    rw [← e]; split <;> rfl
  simp only [bind_ok_iff] at e'
  obtain ⟨m1, e1, m2, e2, e3⟩ := e'
  have h0 : MSOk P G ⟨main, [], [], Record.empty, [], vars, gvars⟩ :=
    ⟨hm, trivial, trivial, by simp [Record.empty], hv, hgv⟩
  have h1 : MSOk P G m1 := by
    split at e1
    · simp only [pure_ok, Except.ok.injEq] at e1; rw [← e1]; exact h0
    · exact saveVars_ok h0 e1
  have h2 := steps_ok hg _ h1 (by
    intro hs hs' h hh'
    obtain ⟨x, hx, hx'⟩ := List.mem_flatten.1 hs'
    exact hh x hx hs hx' h hh') e2
  exact flush_ok hg h2 e3

end TTP
