import Verif.Model.Multi
import Verif.Proofs.Object
/-!
# Proofs about the system of processes
-/

namespace TTP
open Py

variable {J R G : Type}

/-- tasks being parsed -/
def busyOf : WState J R G → List J
  | .busy j _ => [j]
  | _ => []
/-- results about to be put -/
def putOf : WState J R G → List R
  | .putting r _ => [r]
  | _ => []
/-- taken from the queue and not reported done -/
def activeN : WState J R G → Nat
  | .busy _ _ => 1
  | .stopping => 1
  | .crashed => 1
  | _ => 0
/-- has taken a pill -/
def pillN : WState J R G → Nat
  | .stopping => 1
  | .done => 1
  | _ => 0
/-- distance of a worker to the end -/
def weightN : WState J R G → Nat
  | .busy _ _ => 4
  | .putting _ _ => 3
  | .stopping => 1
  | _ => 0
/-- the state has good global variables and is not `crashed` -/
def goodSt (I : G → Prop) : WState J R G → Prop
  | .idle g => I g
  | .busy _ g => I g
  | .putting _ g => I g
  | .crashed => False
  | _ => True

/-- tasks not yet parsed -/
def pend (s : Sys J R G) : List J :=
  (s.tasks ++ s.buf ++ s.toPut).filterMap id ++ s.workers.flatMap (fun w => busyOf w.st)
/-- results on their way or collected -/
def outs (s : Sys J R G) : List R :=
  s.workers.flatMap (fun w => w.outbox ++ putOf w.st) ++ s.results ++ s.got

/-- sum over workers -/
def sumW (f : WState J R G → Nat) (ws : List (WProc J R G)) : Nat := (ws.map (fun w => f w.st)).sum

@[simp] theorem sumW_append (f : WState J R G → Nat) (a b : List (WProc J R G)) : sumW f (a ++ b) = sumW f a + sumW f b := by
  simp [sumW]
@[simp] theorem sumW_cons (f : WState J R G → Nat) (w : WProc J R G) (b : List (WProc J R G)) :
    sumW f (w :: b) = f w.st + sumW f b := by
  simp [sumW]
@[simp] theorem sumW_nil (f : WState J R G → Nat) : sumW f ([] : List (WProc J R G)) = 0 := rfl

/-- every step brings the end nearer -/
def measure (s : Sys J R G) : Nat :=
  7 * s.toPut.length + 6 * s.buf.length + 5 * s.tasks.length + sumW weightN s.workers +
  2 * (s.workers.flatMap (fun w => w.outbox)).length + s.results.length + (if s.joined then 0 else 1)

theorem measure_step (parse : J → G → PyM (R × G)) (num : Nat) (s t : Sys J R G) (h : Step parse num s t) :
    measure t + 1 ≤ measure s := by
  cases h <;> simp [measure, weightN] <;> omega

theorem measure_steps (parse : J → G → PyM (R × G)) (num k : Nat) (s t : Sys J R G) (h : Steps parse num k s t) :
    k + measure t ≤ measure s := by
  induction h with
  | refl => omega
  | tail _ h2 ih => have := measure_step parse num _ _ h2; omega

/-- counter and order of the queue -/
structure QInv (n : Nat) (s : Sys J R G) : Prop where
  len : s.workers.length = n
  cnt : s.unfinished = s.buf.length + s.tasks.length + sumW activeN s.workers
  order : ∃ js k, s.tasks ++ s.buf ++ s.toPut = js.map some ++ List.replicate k none ∧
    k + sumW pillN s.workers = n ∧ (0 < sumW pillN s.workers → js = [])
  jn : s.joined = true → s.toPut = [] ∧ s.unfinished = 0

theorem QInv_init (jobs : List J) (n : Nat) (g0 : G) : QInv n (Sys.init jobs n g0 : Sys J R G) := by
  have e : ∀ f : WState J R G → Nat, f (.idle g0) = 0 → sumW f (List.replicate n ⟨.idle g0, []⟩) = 0 := by
    intro f hf
    simp [sumW, hf]
  refine ⟨by simp [Sys.init], ?_, ⟨jobs, n, by simp [Sys.init], ?_, ?_⟩, by simp [Sys.init]⟩
  · simp [Sys.init, e activeN rfl]
  · simp [Sys.init, e pillN rfl]
  · simp [Sys.init, e pillN rfl]

theorem some_head_split {j : J} {ts : List (Option J)} {js : List J} {k : Nat}
    (h : some j :: ts = js.map some ++ List.replicate k none) : ∃ js', js = j :: js' ∧ ts = js'.map some ++ List.replicate k none := by
  cases js with
  | nil => cases k <;> simp [List.replicate_succ] at h
  | cons a js =>
    simp at h
    exact ⟨js, by rw [h.1], h.2⟩

theorem none_head_split {ts : List (Option J)} {js : List J} {k : Nat}
    (h : none :: ts = js.map some ++ List.replicate k none) : js = [] ∧ ∃ k', k = k' + 1 ∧ ts = List.replicate k' none := by
  cases js with
  | nil =>
    cases k with
    | zero => simp at h
    | succ k => simp [List.replicate_succ] at h; exact ⟨rfl, k, rfl, h⟩
  | cons a js => simp at h

theorem QInv_step (parse : J → G → PyM (R × G)) (num n : Nat) (s t : Sys J R G) (h : Step parse num s t) (hq : QInv n s) :
    QInv n t := by
  obtain ⟨h1, h2, ⟨js, k, h3, h4, h5⟩, h6⟩ := hq
  cases h with
  | put =>
    refine ⟨h1, ?_, ⟨js, k, ?_, h4, h5⟩, by simp⟩
    · simp only [List.length_append, List.length_cons, List.length_nil] at h2 ⊢; omega
    · simpa using h3
  | feed =>
    refine ⟨h1, ?_, ⟨js, k, ?_, h4, h5⟩, h6⟩
    · simp only [List.length_append, List.length_cons, List.length_nil] at h2 ⊢; omega
    · simpa using h3
  | take =>
    simp only [List.cons_append] at h3
    obtain ⟨js', e1, e2⟩ := some_head_split h3
    refine ⟨by simpa using h1, ?_, ⟨js', k, e2, ?_, ?_⟩, h6⟩
    · simp [activeN] at h2 ⊢; omega
    · simpa [pillN] using h4
    · intro hp
      have := h5 (by simpa [pillN] using hp)
      rw [this] at e1; cases e1
  | takePill =>
    simp only [List.cons_append] at h3
    obtain ⟨e1, k', e2, e3⟩ := none_head_split h3
    refine ⟨by simpa using h1, ?_, ⟨[], k', by simpa using e3, ?_, fun _ => rfl⟩, h6⟩
    · simp [activeN] at h2 ⊢; omega
    · simp [pillN] at h4 ⊢; omega
  | stop =>
    refine ⟨by simpa using h1, ?_, ⟨js, k, h3, ?_, ?_⟩, ?_⟩
    · simp [activeN] at h2 ⊢; omega
    · simpa [pillN] using h4
    · intro hp; exact h5 (by simpa [pillN] using hp)
    · intro hj; have := (h6 hj).2; simp at this
  | finish =>
    refine ⟨by simpa using h1, ?_, ⟨js, k, h3, ?_, ?_⟩, ?_⟩
    · simp [activeN] at h2 ⊢; omega
    · simpa [pillN] using h4
    · intro hp; exact h5 (by simpa [pillN] using hp)
    · intro hj; have := (h6 hj).2; simp at this
  | crash =>
    refine ⟨by simpa using h1, ?_, ⟨js, k, h3, ?_, ?_⟩, h6⟩
    · simp [activeN] at h2 ⊢; omega
    · simpa [pillN] using h4
    · intro hp; exact h5 (by simpa [pillN] using hp)
  | putResult =>
    refine ⟨by simpa using h1, ?_, ⟨js, k, h3, ?_, ?_⟩, h6⟩
    · simp [activeN] at h2 ⊢; omega
    · simpa [pillN] using h4
    · intro hp; exact h5 (by simpa [pillN] using hp)
  | send =>
    refine ⟨by simpa using h1, ?_, ⟨js, k, h3, ?_, ?_⟩, h6⟩
    · simp at h2 ⊢; omega
    · simpa using h4
    · intro hp; exact h5 (by simpa using hp)
  | join => exact ⟨h1, h2, ⟨js, k, h3, h4, h5⟩, fun _ => ⟨rfl, rfl⟩⟩
  | get => exact ⟨h1, h2, ⟨js, k, h3, h4, h5⟩, h6⟩

/-- the tasks of which no result is lost or doubled -/
structure JInv (jobs : List J) (r : J → R) (I : G → Prop) (s : Sys J R G) : Prop where
  perm : ((pend s).map r ++ outs s).Perm (jobs.map r)
  mem : ∀ j ∈ pend s, j ∈ jobs
  good : ∀ w ∈ s.workers, goodSt I w.st

theorem filterMap_some (jobs : List J) (n : Nat) : (jobs.map some ++ List.replicate n none).filterMap id = jobs := by
  simp [List.filterMap_append, List.filterMap_map]

theorem JInv_init (jobs : List J) (r : J → R) (I : G → Prop) (n : Nat) (g0 : G) (h0 : I g0) :
    JInv jobs r I (Sys.init jobs n g0 : Sys J R G) := by
  have e : pend (Sys.init jobs n g0 : Sys J R G) = jobs := by
    simp only [pend, Sys.init, List.nil_append, filterMap_some]
    simp [busyOf]
  refine ⟨?_, ?_, ?_⟩
  · rw [e]
    have e2 : outs (Sys.init jobs n g0 : Sys J R G) = [] := by
      have : (List.replicate n (⟨.idle g0, []⟩ : WProc J R G)).flatMap (fun w => w.outbox ++ putOf w.st) = [] := by
        rw [List.flatMap_eq_nil_iff]
        intro w hw
        rw [List.mem_replicate] at hw
        rw [hw.2]; rfl
      simp [outs, Sys.init, this]
    rw [e2]; simp
  · rw [e]; exact fun j h => h
  · intro w hw
    simp [Sys.init] at hw
    rw [hw.2]; exact h0

theorem JInv_step (parse : J → G → PyM (R × G)) (num : Nat) (jobs : List J) (r : J → R) (I : G → Prop)
    (hp : ∀ j ∈ jobs, ∀ g, I g → ∃ g', parse j g = .ok (r j, g') ∧ I g') (s t : Sys J R G) (h : Step parse num s t)
    (hj : JInv jobs r I s) : JInv jobs r I t := by
  classical
  obtain ⟨h1, h2, h3⟩ := hj
  cases h with
  | @put x _ _ _ _ _ _ _ =>
    refine ⟨?_, ?_, h3⟩
    · rw [List.perm_iff_count] at h1 ⊢
      intro a; have := h1 a
      simpa [pend, outs] using this
    · intro j hj; apply h2; simpa [pend] using hj
  | feed =>
    refine ⟨?_, ?_, h3⟩
    · rw [List.perm_iff_count] at h1 ⊢
      intro a; have := h1 a
      simpa [pend, outs] using this
    · intro j hj; apply h2; simpa [pend] using hj
  | @take _ _ _ _ _ _ g ob _ _ _ _ =>
    refine ⟨?_, ?_, ?_⟩
    · rw [List.perm_iff_count] at h1 ⊢
      intro a; have := h1 a
      simp [pend, outs, busyOf, putOf, List.count_cons] at this ⊢
      omega
    · intro q hq; apply h2; simp [pend, busyOf] at hq ⊢; grind
    · intro w hw
      simp only [List.mem_append, List.mem_cons] at hw h3
      rcases hw with hw | rfl | hw
      · exact h3 w (Or.inl hw)
      · exact h3 ⟨.idle g, ob⟩ (Or.inr (Or.inl rfl))
      · exact h3 w (Or.inr (Or.inr hw))
  | takePill =>
    refine ⟨?_, ?_, ?_⟩
    · rw [List.perm_iff_count] at h1 ⊢
      intro a; have := h1 a
      simpa [pend, outs, busyOf, putOf] using this
    · intro q hq; apply h2; simp [pend, busyOf] at hq ⊢; grind
    · intro w hw
      simp only [List.mem_append, List.mem_cons] at hw h3
      rcases hw with hw | rfl | hw
      · exact h3 w (Or.inl hw)
      · trivial
      · exact h3 w (Or.inr (Or.inr hw))
  | stop =>
    refine ⟨?_, ?_, ?_⟩
    · rw [List.perm_iff_count] at h1 ⊢
      intro a; have := h1 a
      simpa [pend, outs, busyOf, putOf] using this
    · intro q hq; apply h2; simp [pend, busyOf] at hq ⊢; grind
    · intro w hw
      simp only [List.mem_append, List.mem_cons] at hw h3
      rcases hw with hw | rfl | hw
      · exact h3 w (Or.inl hw)
      · trivial
      · exact h3 w (Or.inr (Or.inr hw))
  | @finish _ _ _ _ pre j g r1 g1 ob post _ _ _ he =>
    have hg : I g := h3 ⟨.busy j g, ob⟩ (by simp)
    have hjm : j ∈ jobs := h2 j (by simp [pend, busyOf])
    obtain ⟨g', e1, e2⟩ := hp j hjm g hg
    rw [e1] at he
    simp only [Except.ok.injEq, Prod.mk.injEq] at he
    obtain ⟨rfl, rfl⟩ := he
    refine ⟨?_, ?_, ?_⟩
    · rw [List.perm_iff_count] at h1 ⊢
      intro a; have := h1 a
      simp [pend, outs, busyOf, putOf, List.count_cons] at this ⊢
      omega
    · intro q hq; apply h2; simp [pend, busyOf] at hq ⊢; grind
    · intro w hw
      simp only [List.mem_append, List.mem_cons] at hw h3
      rcases hw with hw | rfl | hw
      · exact h3 w (Or.inl hw)
      · exact e2
      · exact h3 w (Or.inr (Or.inr hw))
  | @crash _ _ _ _ pre j g e ob post _ _ _ he =>
    have hg : I g := h3 ⟨.busy j g, ob⟩ (by simp)
    have hjm : j ∈ jobs := h2 j (by simp [pend, busyOf])
    obtain ⟨g', e1, e2⟩ := hp j hjm g hg
    rw [e1] at he; cases he
  | @putResult _ _ _ _ _ x g ob _ _ _ _ =>
    refine ⟨?_, ?_, ?_⟩
    · rw [List.perm_iff_count] at h1 ⊢
      intro a; have := h1 a
      simp [pend, outs, busyOf, putOf, List.count_cons] at this ⊢
      omega
    · intro q hq; apply h2; simp [pend, busyOf] at hq ⊢; grind
    · intro w hw
      simp only [List.mem_append, List.mem_cons] at hw h3
      rcases hw with hw | rfl | hw
      · exact h3 w (Or.inl hw)
      · exact h3 ⟨.putting x g, ob⟩ (Or.inr (Or.inl rfl))
      · exact h3 w (Or.inr (Or.inr hw))
  | @send _ _ _ _ _ st x ob _ _ _ _ =>
    refine ⟨?_, ?_, ?_⟩
    · rw [List.perm_iff_count] at h1 ⊢
      intro a; have := h1 a
      simp [pend, outs, List.count_cons] at this ⊢
      omega
    · intro q hq; apply h2; simp [pend] at hq ⊢; grind
    · intro w hw
      simp only [List.mem_append, List.mem_cons] at hw h3
      rcases hw with hw | rfl | hw
      · exact h3 w (Or.inl hw)
      · exact h3 ⟨st, x :: ob⟩ (Or.inr (Or.inl rfl))
      · exact h3 w (Or.inr (Or.inr hw))
  | join => exact ⟨h1, h2, h3⟩
  | get =>
    refine ⟨?_, h2, h3⟩
    rw [List.perm_iff_count] at h1 ⊢
    intro a; have := h1 a
    simp [pend, outs, List.count_cons] at this ⊢
    omega

theorem inv_steps (parse : J → G → PyM (R × G)) (num k : Nat) (P : Sys J R G → Prop)
    (hs : ∀ s t, Step parse num s t → P s → P t) (s t : Sys J R G) (h : Steps parse num k s t) (h0 : P s) : P t := by
  induction h with
  | refl => exact h0
  | tail _ h2 ih => exact hs _ _ h2 (ih h0)

theorem sumW_pos (f : WState J R G → Nat) (ws : List (WProc J R G)) (h : 0 < sumW f ws) : ∃ w ∈ ws, 0 < f w.st := by
  induction ws with
  | nil => simp at h
  | cons w ws ih =>
    by_cases h0 : 0 < f w.st
    · exact ⟨w, by simp, h0⟩
    · rw [sumW_cons] at h
      obtain ⟨w', h1, h2⟩ := ih (by omega)
      exact ⟨w', by simp [h1], h2⟩

theorem sumW_zero (f : WState J R G → Nat) (ws : List (WProc J R G)) (h : sumW f ws = 0) (w : WProc J R G) (hw : w ∈ ws) :
    f w.st = 0 := by
  induction ws with
  | nil => cases hw
  | cons v ws ih =>
    rw [sumW_cons] at h
    rcases List.mem_cons.1 hw with rfl | hw
    · omega
    · exact ih (by omega) hw

theorem sumW_one (f : WState J R G → Nat) (ws : List (WProc J R G)) (h : ∀ w ∈ ws, f w.st = 1) : sumW f ws = ws.length := by
  induction ws with
  | nil => rfl
  | cons w ws ih =>
    rw [sumW_cons, h w (by simp), ih (fun v hv => h v (by simp [hv]))]
    simp; omega

/-- As long as the main process is not finished, something can move. -/
theorem progress (parse : J → G → PyM (R × G)) (n : Nat) (hn : 0 < n) (jobs : List J) (r : J → R) (I : G → Prop)
    (hp : ∀ j ∈ jobs, ∀ g, I g → ∃ g', parse j g = .ok (r j, g') ∧ I g') (s : Sys J R G) (hq : QInv n s)
    (hj : JInv jobs r I s) (hf : ¬ s.Finished jobs.length) : ∃ t, Step parse jobs.length s t := by
  obtain ⟨toPut, buf, tasks, u, ws, rs, got, jn⟩ := s
  obtain ⟨h1, h2, ⟨js, k, h3, h4, h5⟩, h6⟩ := hq
  obtain ⟨p1, p2, p3⟩ := hj
  simp only at h1 h2 h3 h4 h5 h6
  -- a worker that is neither idle, done nor crashed can move
  have move : ∀ w ∈ ws, 0 < u ∨ putOf w.st ≠ [] → (activeN w.st = 1 ∨ putOf w.st ≠ []) →
      ∃ t, Step parse jobs.length ⟨toPut, buf, tasks, u, ws, rs, got, jn⟩ t := by
    intro w hw hu ha
    obtain ⟨pre, post, e⟩ := List.append_of_mem hw
    have hg := p3 w hw
    obtain ⟨st, ob⟩ := w
    subst e
    cases st with
    | idle g => simp [activeN, putOf] at ha
    | busy j g =>
      simp [putOf] at hu
      obtain ⟨u', rfl⟩ := Nat.exists_eq_add_of_lt hu
      have hjm : j ∈ jobs := p2 j (by simp [pend, busyOf])
      obtain ⟨g', e1, _⟩ := hp j hjm g hg
      rw [show 0 + u' + 1 = u' + 1 by omega]
      exact ⟨_, .finish e1⟩
    | putting r g => exact ⟨_, .putResult⟩
    | stopping =>
      simp [putOf] at hu
      obtain ⟨u', rfl⟩ := Nat.exists_eq_add_of_lt hu
      rw [show 0 + u' + 1 = u' + 1 by omega]
      exact ⟨_, .stop⟩
    | done => simp [activeN, putOf] at ha
    | crashed => exact absurd hg (by simp [goodSt])
  cases jn with
  | false =>
    cases toPut with
    | cons x xs => exact ⟨_, .put⟩
    | nil =>
      cases u with
      | zero => exact ⟨_, .join⟩
      | succ u =>
        cases buf with
        | cons x xs => exact ⟨_, .feed⟩
        | nil =>
          cases tasks with
          | nil =>
            simp at h2
            obtain ⟨w, hw, ha⟩ := sumW_pos activeN ws (by omega)
            refine move w hw (Or.inl (by omega)) (Or.inl ?_)
            cases hst : w.st <;> simp [hst, activeN] at ha ⊢
          | cons x ts =>
            by_cases hex : ∃ w ∈ ws, activeN w.st = 1 ∨ putOf w.st ≠ []
            · obtain ⟨w, hw, ha⟩ := hex
              exact move w hw (Or.inl (by omega)) ha
            · by_cases hid : ∃ w ∈ ws, ∃ g, w.st = .idle g
              · obtain ⟨w, hw, g, hg⟩ := hid
                obtain ⟨pre, post, e⟩ := List.append_of_mem hw
                obtain ⟨st, ob⟩ := w
                simp only at hg
                subst hg e
                cases x with
                | some j => exact ⟨_, .take⟩
                | none => exact ⟨_, .takePill⟩
              · -- all are done
                exfalso
                have hall : ∀ w ∈ ws, pillN w.st = 1 := by
                  intro w hw
                  have hg := p3 w hw
                  cases hst : w.st with
                  | idle g => exact absurd ⟨w, hw, g, hst⟩ hid
                  | busy j g => exact absurd ⟨w, hw, by simp [hst, activeN]⟩ hex
                  | putting r g => exact absurd ⟨w, hw, by simp [hst, putOf]⟩ hex
                  | stopping => rfl
                  | done => rfl
                  | crashed => rw [hst] at hg; exact absurd hg (by simp [goodSt])
                have hsum : sumW pillN ws = ws.length := sumW_one pillN ws hall
                rw [hsum, h1] at h4 h5
                have hk : k = 0 := by omega
                rw [h5 hn, hk] at h3
                simp at h3
  | true =>
    obtain ⟨e1, e2⟩ := h6 rfl
    subst e1 e2
    have hb : buf = [] := by cases buf with
      | nil => rfl
      | cons _ _ => simp at h2; omega
    have ht : tasks = [] := by cases tasks with
      | nil => rfl
      | cons _ _ => simp at h2; omega
    subst hb ht
    simp at h2
    have hbusy : ws.flatMap (fun w => busyOf w.st) = [] := by
      rw [List.flatMap_eq_nil_iff]
      intro w hw
      have := sumW_zero activeN ws h2.symm w hw
      cases hst : w.st <;> simp [hst, activeN, busyOf] at this ⊢
    have hlen := p1.length_eq
    simp only [pend, outs, hbusy] at hlen
    simp at hlen
    have hlt : got.length < jobs.length := by
      have : got.length ≠ jobs.length := fun e => hf ⟨rfl, e⟩
      omega
    cases rs with
    | cons x rs => exact ⟨_, .get hlt⟩
    | nil =>
      have hne : ws.flatMap (fun w => w.outbox ++ putOf w.st) ≠ [] := by
        intro e
        have : (ws.flatMap (fun w => w.outbox ++ putOf w.st)).length = 0 := by rw [e]; rfl
        simp at this hlen
        omega
      obtain ⟨w, hw, hob⟩ : ∃ w ∈ ws, w.outbox ++ putOf w.st ≠ [] := by
        apply Classical.byContradiction
        intro hcon
        apply hne
        rw [List.flatMap_eq_nil_iff]
        intro w hw
        apply Classical.byContradiction
        intro h
        exact hcon ⟨w, hw, h⟩
      by_cases hp0 : putOf w.st = []
      · rw [hp0, List.append_nil] at hob
        obtain ⟨pre, post, e⟩ := List.append_of_mem hw
        obtain ⟨st, ob⟩ := w
        subst e
        cases ob with
        | nil => exact absurd rfl hob
        | cons x ob => exact ⟨_, .send⟩
      · exact move w hw (Or.inr hp0) (Or.inr hp0)

/-- some task raises and is still to be parsed or has crashed a worker; the main process waits -/
structure BInv (bad : J → Prop) (s : Sys J R G) : Prop where
  waiting : s.joined = false
  bad : (∃ j ∈ pend s, bad j) ∨ ∃ w ∈ s.workers, w.st = .crashed

theorem BInv_step (parse : J → G → PyM (R × G)) (num n : Nat) (bad : J → Prop)
    (hbad : ∀ j, bad j → ∀ g, ∃ e, parse j g = .error e) (s t : Sys J R G) (h : Step parse num s t) (hq : QInv n s)
    (hb : BInv bad s) : BInv bad t := by
  obtain ⟨h1, h2⟩ := hb
  -- replacing one worker
  have rep : ∀ (pre post : List (WProc J R G)) (w w' : WProc J R G), w.st ≠ .crashed →
      (∃ v ∈ pre ++ w :: post, v.st = .crashed) → ∃ v ∈ pre ++ w' :: post, v.st = .crashed := by
    rintro pre post w w' hw ⟨v, hv, e⟩
    simp only [List.mem_append, List.mem_cons] at hv
    rcases hv with hv | rfl | hv
    · exact ⟨v, by simp [hv], e⟩
    · exact absurd e hw
    · exact ⟨v, by simp [hv], e⟩
  cases h with
  | put =>
    refine ⟨rfl, ?_⟩
    rcases h2 with ⟨j, hj, hb⟩ | h2
    · exact Or.inl ⟨j, by simpa [pend] using hj, hb⟩
    · exact Or.inr h2
  | feed =>
    refine ⟨h1, ?_⟩
    rcases h2 with ⟨j, hj, hb⟩ | h2
    · exact Or.inl ⟨j, by simpa [pend] using hj, hb⟩
    · exact Or.inr h2
  | take =>
    refine ⟨h1, ?_⟩
    rcases h2 with ⟨j, hj, hb⟩ | h2
    · refine Or.inl ⟨j, ?_, hb⟩
      simp [pend, busyOf] at hj ⊢; grind
    · exact Or.inr (rep _ _ _ _ (by simp) h2)
  | takePill =>
    refine ⟨h1, ?_⟩
    rcases h2 with ⟨j, hj, hb⟩ | h2
    · refine Or.inl ⟨j, ?_, hb⟩
      simp [pend, busyOf] at hj ⊢; grind
    · exact Or.inr (rep _ _ _ _ (by simp) h2)
  | stop =>
    refine ⟨h1, ?_⟩
    rcases h2 with ⟨j, hj, hb⟩ | h2
    · refine Or.inl ⟨j, ?_, hb⟩
      simp [pend, busyOf] at hj ⊢; grind
    · exact Or.inr (rep _ _ _ _ (by simp) h2)
  | @finish _ _ _ _ pre j0 g r1 g1 ob post _ _ _ he =>
    refine ⟨h1, ?_⟩
    rcases h2 with ⟨j, hj, hb⟩ | h2
    · refine Or.inl ⟨j, ?_, hb⟩
      have hne : j ≠ j0 := by
        rintro rfl
        obtain ⟨e, h⟩ := hbad j hb g
        rw [h] at he; cases he
      simp [pend, busyOf] at hj ⊢; grind
    · exact Or.inr (rep _ _ _ _ (by simp) h2)
  | @crash _ _ _ _ pre j0 g e ob post _ _ _ he =>
    exact ⟨h1, Or.inr ⟨⟨.crashed, ob⟩, by simp, rfl⟩⟩
  | putResult =>
    refine ⟨h1, ?_⟩
    rcases h2 with ⟨j, hj, hb⟩ | h2
    · refine Or.inl ⟨j, ?_, hb⟩
      simp [pend, busyOf] at hj ⊢; grind
    · exact Or.inr (rep _ _ _ _ (by simp) h2)
  | @send _ _ _ _ pre st _ ob post _ _ _ =>
    refine ⟨h1, ?_⟩
    rcases h2 with ⟨j, hj, hb⟩ | ⟨v, hv, e⟩
    · refine Or.inl ⟨j, ?_, hb⟩
      simp [pend] at hj ⊢; grind
    · refine Or.inr ?_
      simp only [List.mem_append, List.mem_cons] at hv
      rcases hv with hv | rfl | hv
      · exact ⟨v, by simp [hv], e⟩
      · exact ⟨⟨st, ob⟩, by simp, e⟩
      · exact ⟨v, by simp [hv], e⟩
  | @join buf ts ws rs got =>
    exfalso
    have h0 := hq.cnt
    dsimp only at h0
    have hb : ∀ w ∈ ws, activeN w.st = 0 := sumW_zero activeN ws (by omega)
    rcases h2 with ⟨j, hj, _⟩ | ⟨w, hw, e⟩
    · have hbuf : buf = [] := List.eq_nil_of_length_eq_zero (by omega)
      have hts : ts = [] := List.eq_nil_of_length_eq_zero (by omega)
      subst hbuf hts
      simp [pend] at hj
      obtain ⟨w, hw, hj⟩ := hj
      have := hb w hw
      cases hst : w.st <;> simp [hst, busyOf, activeN] at hj this
    · have := hb w hw
      simp [e, activeN] at this
  | get => cases h1

theorem BInv_init (jobs : List J) (n : Nat) (g0 : G) (bad : J → Prop) (j : J) (hj : j ∈ jobs) (hb : bad j) :
    BInv bad (Sys.init jobs n g0 : Sys J R G) := by
  refine ⟨rfl, Or.inl ⟨j, ?_, hb⟩⟩
  simp only [pend, Sys.init, List.nil_append, filterMap_some]
  simp [hj]


/-! ## Runs of the whole -/

theorem run_inv (parse : J → G → PyM (R × G)) (jobs : List J) (n : Nat) (g0 : G) (r : J → R) (I : G → Prop) (h0 : I g0)
    (hp : ∀ j ∈ jobs, ∀ g, I g → ∃ g', parse j g = .ok (r j, g') ∧ I g') (k : Nat) (s : Sys J R G)
    (h : Steps parse jobs.length k (Sys.init jobs n g0) s) : QInv n s ∧ JInv jobs r I s :=
  inv_steps parse jobs.length k (fun s => QInv n s ∧ JInv jobs r I s)
    (fun s t hst hs => ⟨QInv_step parse _ n s t hst hs.1, JInv_step parse _ jobs r I hp s t hst hs.2⟩) _ _ h
    ⟨QInv_init jobs n g0, JInv_init jobs r I n g0 h0⟩

theorem measure_init (jobs : List J) (n : Nat) (g0 : G) :
    measure (Sys.init jobs n g0 : Sys J R G) = 7 * (jobs.length + n) + 1 := by
  have e : sumW weightN (List.replicate n (⟨.idle g0, []⟩ : WProc J R G)) = 0 := by simp [sumW, weightN]
  have e2 : (List.replicate n (⟨.idle g0, []⟩ : WProc J R G)).flatMap (fun w => w.outbox) = [] := by
    rw [List.flatMap_eq_nil_iff]
    intro w hw
    rw [List.mem_replicate] at hw
    rw [hw.2]
  simp [measure, Sys.init, e, e2]

theorem run_got (parse : J → G → PyM (R × G)) (jobs : List J) (n : Nat) (g0 : G) (r : J → R) (I : G → Prop) (h0 : I g0)
    (hp : ∀ j ∈ jobs, ∀ g, I g → ∃ g', parse j g = .ok (r j, g') ∧ I g') (k : Nat) (s : Sys J R G)
    (h : Steps parse jobs.length k (Sys.init jobs n g0) s) (hf : s.Finished jobs.length) : s.got.Perm (jobs.map r) := by
  obtain ⟨_, hj⟩ := run_inv parse jobs n g0 r I h0 hp k s h
  have hl := hj.perm.length_eq
  have hg := hf.2
  have e1 : pend s = [] := List.eq_nil_of_length_eq_zero (by simp [outs] at hl; omega)
  have e2 : s.results = [] := List.eq_nil_of_length_eq_zero (by simp [outs] at hl; omega)
  have e3 : s.workers.flatMap (fun w => w.outbox ++ putOf w.st) = [] := by
    apply List.eq_nil_of_length_eq_zero
    simp only [outs, List.length_append, List.length_map] at hl; omega
  have := hj.perm
  rw [e1] at this
  simpa [outs, e2, e3] using this

theorem run_exists (parse : J → G → PyM (R × G)) (jobs : List J) (n : Nat) (hn : 0 < n) (r : J → R) (I : G → Prop)
    (hp : ∀ j ∈ jobs, ∀ g, I g → ∃ g', parse j g = .ok (r j, g') ∧ I g') (m : Nat) (s : Sys J R G) (hm : measure s ≤ m)
    (hq : QInv n s) (hj : JInv jobs r I s) (k0 : Nat) (s0 : Sys J R G) (h0 : Steps parse jobs.length k0 s0 s) :
    ∃ k t, Steps parse jobs.length k s0 t ∧ t.Finished jobs.length := by
  induction m generalizing s k0 with
  | zero =>
    by_cases hf : s.Finished jobs.length
    · exact ⟨k0, s, h0, hf⟩
    · obtain ⟨t, ht⟩ := progress parse n hn jobs r I hp s hq hj hf
      have := measure_step parse _ _ _ ht
      omega
  | succ m ih =>
    by_cases hf : s.Finished jobs.length
    · exact ⟨k0, s, h0, hf⟩
    · obtain ⟨t, ht⟩ := progress parse n hn jobs r I hp s hq hj hf
      have := measure_step parse _ _ _ ht
      exact ih t (by omega) (QInv_step parse _ n s t ht hq) (JInv_step parse _ jobs r I hp s t ht hj) (k0 + 1) (.tail h0 ht)

theorem collect_input (t : Tpl) (rs : List Val) (f : Val → Val) (hf : ∀ r ∈ rs, formDatum r = .ok (f r))
    (hm : t.method = c!"per_input") (xs : List Val) (hr : t.results = .list xs) :
    collectResults t rs = .ok { t with results := .list (xs ++ rs.map f) } := by
  induction rs generalizing t xs with
  | nil => simp [collectResults, pure_ok, ← hr]
  | cons r rs ih =>
    unfold collectResults
    have e := (formResults_input t r { t with results := .list (xs ++ [f r]) } hm xs hr).2 ⟨f r, hf r (by simp), rfl⟩
    rw [e, ok_bind, ih { t with results := .list (xs ++ [f r]) } (fun q hq => hf q (by simp [hq])) hm _ rfl]
    simp

theorem collect_template (t : Tpl) (rs : List Val) (f : Val → Val) (hf : ∀ r ∈ rs, formDatum r = .ok (f r))
    (hm : t.method = c!"per_template") :
    collectResults t rs = .ok (match rs.getLast? with | none => t | some r => { t with results := f r }) := by
  induction rs generalizing t with
  | nil => rfl
  | cons r rs ih =>
    unfold collectResults
    have e := (formResults_template t r { t with results := f r } hm).2 ⟨f r, hf r (by simp), rfl⟩
    rw [e, ok_bind, ih { t with results := f r } (fun q hq => hf q (by simp [hq])) hm, List.getLast?_cons]
    cases hl : rs.getLast? <;> simp

/-- result of a data item parsed alone by a fresh worker -/
def soloR (E : Engine) (t : Tpl) (j : TInput × Datum) : Val :=
  match parseDatum E t j.1 j.2 (.dict []) [] with
  | .ok (r, _) => r
  | .error _ => .none
/-- and its entry in the results -/
def formOf (r : Val) : Val :=
  match formDatum r with
  | .ok e => e
  | .error _ => .none

theorem each_solo (E : Engine) (hE : E.KeepsGlobals) (t : Tpl) (js : List (TInput × Datum)) (g' : Dict Str Val) (es : List Val)
    (h : EachOf E t js [] g' es) :
    es = (js.map (soloR E t)).map formOf ∧ (∀ j ∈ js, parseDatum E t j.1 j.2 (.dict []) [] = .ok (soloR E t j, [])) ∧
    ∀ j ∈ js, formDatum (soloR E t j) = .ok (formOf (soloR E t j)) := by
  obtain ⟨_, h2⟩ := EachOf_gvars E hE t js [] g' es h
  have hl := EachOf_length E t js [] g' es h
  have key : ∀ (i : Nat) inp d, js[i]? = some (inp, d) → parseDatum E t inp d (.dict []) [] = .ok (soloR E t (inp, d), []) ∧
      formDatum (soloR E t (inp, d)) = .ok (formOf (soloR E t (inp, d))) ∧ es[i]? = some (formOf (soloR E t (inp, d))) := by
    intro i inp d hi
    obtain ⟨r, e, h3, h4, h5⟩ := h2 i inp d hi
    have e1 : soloR E t (inp, d) = r := by simp [soloR, h3]
    have e2 : formOf r = e := by simp [formOf, h4]
    rw [e1, e2]
    exact ⟨h3, h4, h5⟩
  refine ⟨?_, ?_, ?_⟩
  · apply List.ext_getElem?
    intro i
    cases hi : js[i]? with
    | none =>
      rw [List.getElem?_eq_none_iff] at hi
      rw [List.getElem?_eq_none_iff.2 (by omega), List.getElem?_eq_none_iff.2 (by simpa using hi)]
    | some j =>
      rw [(key i j.1 j.2 hi).2.2]
      simp [hi]
  · intro j hj
    obtain ⟨i, hi⟩ := List.mem_iff_getElem?.1 hj
    exact (key i j.1 j.2 hi).1
  · intro j hj
    obtain ⟨i, hi⟩ := List.mem_iff_getElem?.1 hj
    exact (key i j.1 j.2 hi).2.1

end TTP
