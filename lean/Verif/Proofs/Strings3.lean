import Verif.Proofs.Strings2
/-! # Strings of the results: collection of matches -/

namespace TTP
open Py Spec

variable {P : Str → Prop} {F : FnCall → Prop} {mf : MatchFns}

/-- strings of the environment -/
def EnvOk (P : Str → Prop) (env : Env) : Prop := ValsOk P env.vars ∧ ValsOk P env.gvars

theorem runMatchFns_ok (hk : MatchFnsKeep P mf F) (fns : List FnCall) (hf : ∀ f ∈ fns, F f) {env env' : Env} {v : Val}
    {fl : Option (Dict Key Val)} {o : Option (Val × Option (Dict Key Val))} (he : EnvOk P env) (hv : AllStr P v)
    (hfl : ∀ d, fl = some d → AllStrD P d) (e : runMatchFns mf fns env v fl = .ok (env', o)) :
    EnvOk P env' ∧ ∀ w f, o = some (w, f) → AllStr P w ∧ ∀ d, f = some d → AllStrD P d := by
  induction fns generalizing env v fl with
  | nil =>
    simp only [runMatchFns, pure_ok, Except.ok.injEq, Prod.mk.injEq] at e
    rw [← e.1, ← e.2]
    refine ⟨he, fun w f h => ?_⟩
    simp only [Option.some.injEq, Prod.mk.injEq] at h
    rw [← h.1, ← h.2]; exact ⟨hv, hfl⟩
  | cons f fns ih =>
    simp only [runMatchFns, bind_ok_iff] at e
    obtain ⟨⟨e1, v1, g⟩, h1, h2⟩ := e
    have := hk f (hf f List.mem_cons_self) env v e1 v1 g he.1 he.2 hv h1
    dsimp only at h2
    split at h2
    · simp only [pure_ok, Except.ok.injEq, Prod.mk.injEq] at h2
      rw [← h2.1, ← h2.2]
      exact ⟨⟨this.1, this.2.1⟩, by simp⟩
    · refine ih (fun f h => hf f (List.mem_cons_of_mem _ h)) ⟨this.1, this.2.1⟩ this.2.2.1 ?_ h2
      intro d hd
      cases g with
      | newField d' =>
        have hd' := this.2.2.2 d' rfl
        cases fl with
        | none => simp only [addFlag, Option.some.injEq] at hd; rw [← hd]; exact hd'
        | some old => simp only [addFlag, Option.some.injEq] at hd; rw [← hd]; exact allStrD_update (hfl old rfl) hd'
      | nothing => exact hfl d hd
      | yes => exact hfl d hd
      | no => exact hfl d hd

theorem checkVars_ok (hk : MatchFnsKeep P mf F) (vars : Dict Str (Str × List FnCall)) (hF : ∀ v ∈ vars, ∀ f ∈ v.2.2, F f)
    (vals : List (Str × Str)) (hv : ∀ x ∈ vals, P x.2) {env env' : Env} {acc : Dict Key Val} {o : Option (Dict Key Val)}
    (he : EnvOk P env) (ha : AllStrD P acc) (e : checkVars mf vars vals env acc = .ok (env', o)) :
    EnvOk P env' ∧ ∀ d, o = some d → AllStrD P d := by
  induction vals generalizing env acc with
  | nil =>
    simp only [checkVars, pure_ok, Except.ok.injEq, Prod.mk.injEq] at e
    rw [← e.1, ← e.2]
    exact ⟨he, fun d h => by injection h with h; rw [← h]; exact ha⟩
  | cons x vals ih =>
    obtain ⟨name, t⟩ := x
    simp only [checkVars] at e
    split at e
    · cases e
    · rename_i orig fns hg
      simp only [bind_ok_iff] at e
      obtain ⟨⟨e1, o1⟩, h1, h2⟩ := e
      have := runMatchFns_ok hk fns (hF _ (Dict.mem_of_get? _ _ _ hg)) he (v := .str t) (hv _ List.mem_cons_self)
        (by simp) h1
      dsimp only at h2
      split at h2
      · simp only [pure_ok, Except.ok.injEq, Prod.mk.injEq] at h2
        rw [← h2.1, ← h2.2]; exact ⟨this.1, by simp⟩
      · rename_i w fl
        have h3 := this.2 w fl rfl
        refine ih (fun x hx => hv x (List.mem_cons_of_mem _ hx)) this.1 (allStrD_update (allStrD_set ha _ h3.1) ?_) h2
        cases fl with
        | none => trivial
        | some d => exact h3.2 d rfl

theorem slice_infix (text : Str) (start : Nat) (stop : Option Nat) : slice text start stop <:+: text := by
  cases stop with
  | none => exact ((List.drop_suffix _ _).isInfix).trans (List.dropLast_prefix _).isInfix
  | some e => exact ((List.drop_suffix _ _).isInfix).trans (List.take_prefix _ _).isInfix

theorem checkMatch_ok (hk : MatchFnsKeep P mf F) (line : LineRx) (hF : ∀ v ∈ line.vars, ∀ f ∈ v.2.2, F f) (text window : Str)
    (hw : window <:+: text) (hP : ∀ s, s <:+: text → P s) (m : Re.Match) (hm : m ∈ Re.finditer line.re window)
    {env env' : Env} {o : Option (Dict Key Val)} (he : EnvOk P env) (e : checkMatch mf line m env = .ok (env', o)) :
    EnvOk P env' ∧ ∀ d, o = some d → AllStrD P d := by
  refine checkVars_ok hk line.vars hF _ ?_ he (acc := []) trivial e
  intro x hx
  apply hP
  refine List.IsInfix.trans ?_ hw
  unfold matchValues at hx
  split at hx
  · obtain ⟨k, _, rfl⟩ := List.mem_map.1 hx
    exact (Re.finditer_text _ _ _ hm).isInfix.trans (List.drop_suffix _ _).isInfix
  · exact Re.finditer_caps _ _ _ hm x hx

/-- all matches have the property -/
def AllHits (Q : RawHit → Prop) (r : RawDict) : Prop := ∀ kv ∈ r, ∀ h ∈ kv.2, Q h

theorem allHits_set {Q : RawHit → Prop} {r : RawDict} (h : AllHits Q r) (p : Nat) (hs : List RawHit) (hq : ∀ x ∈ hs, Q x) :
    AllHits Q (Dict.set r p hs) := by
  intro kv hkv x hx
  rcases mem_set_or _ _ _ _ hkv with rfl | hkv
  · exact hq x hx
  · exact h kv hkv x hx

theorem allHits_addRaw {Q : RawHit → Prop} {r : RawDict} (h : AllHits Q r) (p : Nat) (x : RawHit) (hx : Q x) :
    AllHits Q (addRaw r p x) := by
  apply allHits_set h
  intro y hy
  rcases List.mem_append.1 hy with hy | hy
  · cases hg : Dict.get? r p with
    | none => rw [hg] at hy; cases hy
    | some hs => rw [hg] at hy; exact h _ (Dict.mem_of_get? _ _ _ hg) y hy
  · simp only [List.mem_singleton] at hy; rw [hy]; exact hx

theorem checkMatches_ok (hk : MatchFnsKeep P mf F) (Q : RawHit → Prop) (info : GInfo) (line : LineRx)
    (hF : ∀ v ∈ line.vars, ∀ f ∈ v.2.2, F f) (text window : Str) (hw : window <:+: text) (hP : ∀ s, s <:+: text → P s)
    (hQ : ∀ o, (∀ d, o = some d → AllStrD P d) → Q ⟨info, line, o⟩) (start : Nat) (ms : List Re.Match)
    (hm : ∀ m ∈ ms, m ∈ Re.finditer line.re window) {env env' : Env} {r r' : RawDict} (he : EnvOk P env) (hr : AllHits Q r)
    (e : checkMatches mf info line start ms env r = .ok (env', r')) : EnvOk P env' ∧ AllHits Q r' := by
  induction ms generalizing env r with
  | nil => simp only [checkMatches, pure_ok, Except.ok.injEq, Prod.mk.injEq] at e; rw [← e.1, ← e.2]; exact ⟨he, hr⟩
  | cons m ms ih =>
    simp only [checkMatches, bind_ok_iff] at e
    obtain ⟨⟨e1, o⟩, h1, h2⟩ := e
    have h3 := checkMatch_ok hk line hF text window hw hP m (hm m List.mem_cons_self) he h1
    dsimp only at h2
    split at h2
    · exact ih (fun m h => hm m (List.mem_cons_of_mem _ h)) h3.1 hr h2
    · exact ih (fun m h => hm m (List.mem_cons_of_mem _ h)) h3.1 (allHits_addRaw hr _ _ (hQ o h3.2)) h2

section
variable (hk : MatchFnsKeep P mf F) (Q : RawHit → Prop) (text : Str) (hP : ∀ s, s <:+: text → P s)

/-- what the collection needs to know about the lines of one group -/
def LinesOk (P : Str → Prop) (F : FnCall → Prop) (Q : RawHit → Prop) (info : GInfo) (ls : List LineRx) : Prop :=
  ∀ line ∈ ls, (∀ v ∈ line.vars, ∀ f ∈ v.2.2, F f) ∧ ∀ o, (∀ d, o = some d → AllStrD P d) → Q ⟨info, line, o⟩

include hk hP in
theorem runStarts_ok (info : GInfo) (start : Nat) (stop : Option Nat) (ls : List LineRx) (hl : LinesOk P F Q info ls)
    {si si' : StartInfo} {env env' : Env} {r r' : RawDict} (he : EnvOk P env) (hr : AllHits Q r)
    (e : runStarts mf text info start stop ls si env r = .ok (si', env', r')) : EnvOk P env' ∧ AllHits Q r' := by
  induction ls generalizing si env r with
  | nil => simp only [runStarts, pure_ok, Except.ok.injEq, Prod.mk.injEq] at e; rw [← e.2.1, ← e.2.2]; exact ⟨he, hr⟩
  | cons R Rs ih =>
    simp only [runStarts] at e
    have hl' : LinesOk P F Q info Rs := fun l h => hl l (List.mem_cons_of_mem _ h)
    split at e
    · exact ih hl' he hr e
    · rename_i m0 ms hf
      simp only [bind_ok_iff] at e
      obtain ⟨⟨e1, r1⟩, h1, h2⟩ := e
      have hR := hl R List.mem_cons_self
      have h3 := checkMatches_ok hk Q info R hR.1 text _ (slice_infix text start stop) hP hR.2 start _
        (fun m hm => by rw [hf]; exact hm) he hr h1
      exact ih hl' h3.1 h3.2 h2

include hk hP in
theorem runEnds_ok (info : GInfo) (start : Nat) (stop : Option Nat) (se : Nat) (ls : List LineRx) (hl : LinesOk P F Q info ls)
    {x x' : Option Nat} {env env' : Env} {r r' : RawDict} (he : EnvOk P env) (hr : AllHits Q r)
    (e : runEnds mf text info start stop se ls x env r = .ok (x', env', r')) : EnvOk P env' ∧ AllHits Q r' := by
  induction ls generalizing x env r with
  | nil => simp only [runEnds, pure_ok, Except.ok.injEq, Prod.mk.injEq] at e; rw [← e.2.1, ← e.2.2]; exact ⟨he, hr⟩
  | cons R Rs ih =>
    simp only [runEnds] at e
    have hl' : LinesOk P F Q info Rs := fun l h => hl l (List.mem_cons_of_mem _ h)
    split at e
    · exact ih hl' he hr e
    · rename_i m0 ms hf
      simp only [bind_ok_iff] at e
      obtain ⟨⟨e1, r1⟩, h1, h2⟩ := e
      have hR := hl R List.mem_cons_self
      have h3 := checkMatches_ok hk Q info R hR.1 text _ (slice_infix text start stop) hP hR.2 start _
        (fun m hm => by rw [hf]; exact hm) he hr h1
      exact ih hl' h3.1 h3.2 h2

include hk hP in
theorem runNormals_ok (info : GInfo) (start : Nat) (stop : Option Nat) (ls : List LineRx) (hl : LinesOk P F Q info ls)
    {env env' : Env} {r r' : RawDict} (he : EnvOk P env) (hr : AllHits Q r)
    (e : runNormals mf text info start stop ls env r = .ok (env', r')) : EnvOk P env' ∧ AllHits Q r' := by
  induction ls generalizing env r with
  | nil => simp only [runNormals, pure_ok, Except.ok.injEq, Prod.mk.injEq] at e; rw [← e.1, ← e.2]; exact ⟨he, hr⟩
  | cons R Rs ih =>
    simp only [runNormals] at e
    have hl' : LinesOk P F Q info Rs := fun l h => hl l (List.mem_cons_of_mem _ h)
    simp only [bind_ok_iff] at e
    obtain ⟨⟨e1, r1⟩, h1, h2⟩ := e
    have hR := hl R List.mem_cons_self
    have h3 := checkMatches_ok hk Q info R hR.1 text _ (slice_infix text start stop) hP hR.2 start _
      (fun m hm => hm) he hr h1
    exact ih hl' h3.1 h3.2 h2

theorem allHits_cleanup {Q : RawHit → Prop} {r : RawDict} (h : AllHits Q r) (info : GInfo) (stop : Nat) :
    AllHits Q (cleanup info stop r) := by
  intro kv hkv x hx
  obtain ⟨hs, h1, h2⟩ := recorded_cleanup info stop r kv.1 x ⟨kv.2, hkv, hx⟩
  exact h (kv.1, hs) h1 x h2

mutual
/-- the lines of a group and of all groups below it -/
def GrpOk (P : Str → Prop) (F : FnCall → Prop) (Q : RawHit → Prop) : Grp → Prop
  | .mk info startL normalL endL _ children =>
    LinesOk P F Q info startL ∧ LinesOk P F Q info normalL ∧ LinesOk P F Q info endL ∧ Q ⟨info, emptyStart, some []⟩ ∧
      GrpsOk P F Q children
def GrpsOk (P : Str → Prop) (F : FnCall → Prop) (Q : RawHit → Prop) : List Grp → Prop
  | [] => True
  | g :: gs => GrpOk P F Q g ∧ GrpsOk P F Q gs
end

theorem addDefault_ok {info : GInfo} {startL : List LineRx} (h1 : LinesOk P F Q info startL) (h2 : Q ⟨info, emptyStart, some []⟩)
    {r : RawDict} (hr : AllHits Q r) : AllHits Q (addDefault info startL r) := by
  apply allHits_set hr
  intro x hx
  simp only [List.mem_singleton] at hx
  rw [hx]
  cases startL with
  | nil => exact h2
  | cons l ls => exact (h1 l List.mem_cons_self).2 _ (fun d hd => by injection hd with hd; rw [← hd]; trivial)

mutual
theorem runRe_ok (hk : MatchFnsKeep P mf F) (Q : RawHit → Prop) (text : Str) (hP : ∀ s, s <:+: text → P s) (g : Grp) (hg : GrpOk P F Q g) (start : Nat) (stop : Option Nat) {env env' : Env} {r r' : RawDict}
    (he : EnvOk P env) (hr : AllHits Q r) (e : runRe mf text g start stop env r = .ok (env', r')) :
    EnvOk P env' ∧ AllHits Q r' := by
  match g, hg, e with
  | .mk info startL normalL endL dflt children, hg, e =>
    simp only [GrpOk] at hg
    obtain ⟨g1, g2, g3, g4, g5⟩ := hg
    simp only [runRe, bind_ok_iff] at e
    obtain ⟨⟨si, e1, r1⟩, h1, h2⟩ := e
    have k1 := runStarts_ok hk Q text hP info start stop startL g1 he hr h1
    dsimp only at h2
    split at h2
    · refine runDefaultChildren_ok hk Q text hP _ children g5 start stop k1.1 ?_ h2
      split
      · exact addDefault_ok Q g1 g4 k1.2
      · exact k1.2
    · simp only [bind_ok_iff] at h2
      obtain ⟨⟨x, e2, r2⟩, h3, h4⟩ := h2
      have k2 := runEnds_ok hk Q text hP info _ stop _ endL g3 k1.1 k1.2 h3
      cases x with
      | none =>
        obtain ⟨⟨e3, r3⟩, h5, h6⟩ := h4
        have k3 := runNormals_ok hk Q text hP info _ _ normalL g2 k2.1 k2.2 h5
        exact runChildren_ok hk Q text hP children g5 _ _ k3.1 k3.2 h6
      | some x =>
        obtain ⟨⟨e3, r3⟩, h5, h6⟩ := h4
        have k3 := runNormals_ok hk Q text hP info _ _ normalL g2 k2.1 (allHits_cleanup k2.2 info _) h5
        exact runChildren_ok hk Q text hP children g5 _ _ k3.1 k3.2 h6
theorem runChildren_ok (hk : MatchFnsKeep P mf F) (Q : RawHit → Prop) (text : Str) (hP : ∀ s, s <:+: text → P s) (gs : List Grp) (hg : GrpsOk P F Q gs) (start : Nat) (stop : Option Nat) {env env' : Env} {r r' : RawDict}
    (he : EnvOk P env) (hr : AllHits Q r) (e : runChildren mf text gs start stop env r = .ok (env', r')) :
    EnvOk P env' ∧ AllHits Q r' := by
  match gs, hg, e with
  | [], _, e => simp only [runChildren, pure_ok, Except.ok.injEq, Prod.mk.injEq] at e; rw [← e.1, ← e.2]; exact ⟨he, hr⟩
  | g :: gs, hg, e =>
    simp only [runChildren, bind_ok_iff] at e
    obtain ⟨⟨e1, r1⟩, h1, h2⟩ := e
    simp only [GrpsOk] at hg
    have k := runRe_ok hk Q text hP g hg.1 start stop he hr h1
    exact runChildren_ok hk Q text hP gs hg.2 start stop k.1 k.2 h2
theorem runDefaultChildren_ok (hk : MatchFnsKeep P mf F) (Q : RawHit → Prop) (text : Str) (hP : ∀ s, s <:+: text → P s) (b : Bool) (gs : List Grp) (hg : GrpsOk P F Q gs) (start : Nat) (stop : Option Nat)
    {env env' : Env} {r r' : RawDict}
    (he : EnvOk P env) (hr : AllHits Q r) (e : runDefaultChildren mf text b gs start stop env r = .ok (env', r')) :
    EnvOk P env' ∧ AllHits Q r' := by
  match gs, hg, e with
  | [], _, e =>
    simp only [runDefaultChildren, pure_ok, Except.ok.injEq, Prod.mk.injEq] at e; rw [← e.1, ← e.2]; exact ⟨he, hr⟩
  | g :: gs, hg, e =>
    simp only [runDefaultChildren] at e
    have e' : ((if (b || g.hasDefault) = true then runRe mf text g start stop env r else pure (env, r)) >>= fun q =>
        runDefaultChildren mf text b gs start stop q.1 q.2) = .ok (env', r') := by
      rw [← e]; split <;> rfl
    simp only [bind_ok_iff] at e'
    obtain ⟨⟨e1, r1⟩, h1, h2⟩ := e'
    simp only [GrpsOk] at hg
    have k : EnvOk P e1 ∧ AllHits Q r1 := by
      split at h1
      · exact runRe_ok hk Q text hP g hg.1 start stop he hr h1
      · simp only [pure_ok, Except.ok.injEq, Prod.mk.injEq] at h1; rw [← h1.1, ← h1.2]; exact ⟨he, hr⟩
    exact runDefaultChildren_ok hk Q text hP b gs hg.2 start stop k.1 k.2 h2
end

include hk hP in
theorem runGroups_ok (gs : List Grp) (hg : GrpsOk P F Q gs) {env env' : Env} {rs : List RawDict} (he : EnvOk P env)
    (e : runGroups mf text gs env = .ok (env', rs)) : EnvOk P env' ∧ ∀ r ∈ rs, AllHits Q r := by
  induction gs generalizing env env' rs with
  | nil => simp only [runGroups, pure_ok, Except.ok.injEq, Prod.mk.injEq] at e; rw [← e.1, ← e.2]; exact ⟨he, by simp⟩
  | cons g gs ih =>
    simp only [runGroups, bind_ok_iff] at e
    obtain ⟨⟨e1, r1⟩, h1, ⟨⟨e2, rs2⟩, h2, h3⟩⟩ := e
    simp only [pure_ok, Except.ok.injEq, Prod.mk.injEq] at h3
    simp only [GrpsOk] at hg
    have k1 := runRe_ok hk Q text hP g hg.1 0 none he (by intro kv hkv; cases hkv) h1
    have k2 := ih hg.2 k1.1 h2
    rw [← h3.1, ← h3.2]
    refine ⟨k2.1, fun r hr => ?_⟩
    rcases List.mem_cons.1 hr with rfl | hr
    · exact k1.2
    · exact k2.2 r hr
end

theorem updateRuns_allStr {runs : Dict Key Val} {data : Dict Str Val} (hr : AllStrD P runs) (hd : ValsOk P data) :
    AllStrD P (updateRuns runs data) := by
  unfold updateRuns
  induction data generalizing runs with
  | nil => exact hr
  | cons kv data ih =>
    simp only [List.foldl_cons]
    refine ih ?_ (fun x hx => hd x (List.mem_cons_of_mem _ hx))
    rw [allStrD_iff] at hr ⊢
    intro x hx
    obtain ⟨y, hy, rfl⟩ := List.mem_map.1 hx
    split
    · exact hd kv List.mem_cons_self
    · exact hr y hy

/-- a collected match of one of the groups -/
structure RawOk (P : Str → Prop) (infos : List GInfo) (lines : List LineRx) (h : RawHit) : Prop where
  info : h.info ∈ infos
  line : h.line ∈ lines ∨ h.line = emptyStart
  data : ∀ d, h.data = some d → AllStrD P d

mutual
theorem grpOk_of (infos : List GInfo) (lines : List LineRx) (hF : ∀ l ∈ lines, ∀ v ∈ l.vars, ∀ f ∈ v.2.2, F f) (g : Grp)
    (hi : ∀ i ∈ g.infos, i ∈ infos) (hl : ∀ l ∈ g.lines, l ∈ lines) : GrpOk P F (RawOk P infos lines) g := by
  match g, hi, hl with
  | .mk info startL normalL endL dflt children, hi, hl =>
    simp only [Grp.infos, List.mem_cons] at hi
    simp only [Grp.lines, List.mem_append] at hl
    have hinfo := hi info (.inl rfl)
    have key : ∀ ls : List LineRx, (∀ l ∈ ls, l ∈ lines) → LinesOk P F (RawOk P infos lines) info ls :=
      fun ls h l hl => ⟨hF l (h l hl), fun o ho => ⟨hinfo, .inl (h l hl), ho⟩⟩
    simp only [GrpOk]
    refine ⟨key _ (fun l h => hl l (by simp [h])), key _ (fun l h => hl l (by simp [h])), key _ (fun l h => hl l (by simp [h])),
      ⟨hinfo, .inr rfl, fun d hd => by injection hd with hd; rw [← hd]; trivial⟩,
      grpsOk_of infos lines hF children (fun i h => hi i (.inr h)) (fun l h => hl l (by simp [h]))⟩
theorem grpsOk_of (infos : List GInfo) (lines : List LineRx) (hF : ∀ l ∈ lines, ∀ v ∈ l.vars, ∀ f ∈ v.2.2, F f) (gs : List Grp)
    (hi : ∀ i ∈ infosAll gs, i ∈ infos) (hl : ∀ l ∈ linesAll gs, l ∈ lines) : GrpsOk P F (RawOk P infos lines) gs := by
  match gs, hi, hl with
  | [], _, _ => trivial
  | g :: gs, hi, hl =>
    simp only [infosAll, List.mem_append] at hi
    simp only [linesAll, List.mem_append] at hl
    exact ⟨grpOk_of infos lines hF g (fun i h => hi i (.inl h)) (fun l h => hl l (.inl h)),
      grpsOk_of infos lines hF gs (fun i h => hi i (.inr h)) (fun l h => hl l (.inr h))⟩
end

theorem parseText_ok {gf : GroupFns} {toInt : Bool} {vtr : Dict Str (List Str)} {groups : List Grp} {text : Str}
    {env : Env} {main : Val} {ms : MS}
    (hP : ∀ s, s <:+: text → P s)
    (hd : ∀ i ∈ infosAll groups, AllStrD P i.defaults)
    (hj : ∀ l ∈ linesAll groups, l.action = .join → ∀ j, JoinString l j → ∀ a b, P a → P b → P (a ++ (j ++ b)))
    (hk : MatchFnsKeep P mf (UsedMatchFn groups)) (hg : GroupFnsKeep P gf (UsedGroupFn groups))
    (hv : ValsOk P env.vars) (hgv : ValsOk P env.gvars) (hm : AllStr P main)
    (e : parseText mf gf toInt vtr groups text env main = .ok ms) : MSOk P (UsedGroupFn groups) ms := by
  simp only [parseText, bind_ok_iff] at e
  obtain ⟨⟨env', raws⟩, e1, e2⟩ := e
  have k1 := runGroups_ok hk (RawOk P (infosAll groups) (linesAll groups)) text hP groups
    (grpsOk_of _ _ (fun l hl v hv f hf => ⟨l, hl, v, hv, hf⟩) groups (fun _ h => h) (fun _ h => h)) ⟨hv, hgv⟩ e1
  refine makeResults_ok hg k1.1.1 k1.1.2 _ ?_ hm e2
  intro x hx hs hhs h hh
  obtain ⟨r, hr, rfl⟩ := List.mem_map.1 hx
  obtain ⟨kv, hkv, rfl⟩ := List.mem_map.1 hhs
  obtain ⟨raw, hraw, rfl⟩ := List.mem_map.1 hh
  have hq := k1.2 r (List.mem_filter.1 hr).1 kv ((sortRaw_perm r).mem_iff.1 hkv) raw hraw
  refine ⟨hq.data, updateRuns_allStr (updateRuns_allStr (hd _ hq.info) k1.1.2) k1.1.1, fun f hf => ⟨_, hq.info, hf⟩, ?_⟩
  intro ha j hjj
  rcases hq.line with hl | hl
  · refine hj _ hl ha j ?_
    rcases hjj with rfl | ⟨v, hv, f, hf, h1, h2⟩
    · exact .inl rfl
    · obtain ⟨w, hw, rfl⟩ := List.mem_map.1 hv
      exact .inr ⟨w, hw, f, hf, h1, h2⟩
  · simp only [toHit, hl, emptyStart] at ha
    cases ha

mutual
theorem allStr_mono {P Q : Str → Prop} (h : ∀ s, P s → Q s) (v : Val) (hv : AllStr P v) : AllStr Q v := by
  match v, hv with
  | .str s, hv => exact h s hv
  | .list xs, hv => exact allStrL_mono h xs hv
  | .dict kvs, hv => exact allStrD_mono h kvs hv
  | .none, _ => trivial
  | .bool _, _ => trivial
  | .int _, _ => trivial
  | .flt _, _ => trivial
theorem allStrL_mono {P Q : Str → Prop} (h : ∀ s, P s → Q s) (xs : List Val) (hv : AllStrL P xs) : AllStrL Q xs := by
  match xs, hv with
  | [], _ => trivial
  | x :: xs, hv => exact ⟨allStr_mono h x hv.1, allStrL_mono h xs hv.2⟩
theorem allStrD_mono {P Q : Str → Prop} (h : ∀ s, P s → Q s) (d : List (Key × Val)) (hv : AllStrD P d) : AllStrD Q d := by
  match d, hv with
  | [], _ => trivial
  | (_, x) :: d, hv => exact ⟨allStr_mono h x hv.1, allStrD_mono h d hv.2⟩
end

end TTP
