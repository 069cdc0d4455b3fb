import Verif.Proofs.Hostname
import Verif.Proofs.MatchStr
import Verif.Spec.Commands
/-! # Lemmas: output of commands -/

namespace TTP
open Py Spec Re InputFn

/-- hits with text before them -/
def pre (a : Str) (L : List Re.Hit) : List Re.Hit := L.map (fun h => (a ++ h.1, h.2.1, h.2.2))

theorem pre_pre (a b : Str) (L : List Re.Hit) : pre a (pre b L) = pre (a ++ b) L := by simp [pre]

theorem pre_nil (L : List Re.Hit) : pre [] L = L := by simp [pre]

theorem run_lits_seq (w : Str) (X : Re) (y : Str) : run (.seq (lits w) X) (w ++ y) = pre w (run X y) := by
  have h : ∀ w y, run (lits w) (w ++ y) = [(w, y, [])] := by
    intro w y
    induction w with
    | nil => simp [lits, run]
    | cons c w ih => simp [lits, run, CC.test, ih]
  simp [run, h, pre]

theorem run_lits_no (w : Str) (X : Re) (s : Str) (h : ¬ w <+: s) : run (.seq (lits w) X) s = [] := by
  have h : run (lits w) s = [] := by
    apply List.eq_nil_iff_forall_not_mem.2
    intro x hx
    have := (mem_lits w s x).1 hx
    exact h ⟨_, this.2.1⟩
  simp [run, h]

theorem starRun_blanks (X : Re) (hX : ∀ z, run X (' ' :: z) = []) (n : Nat) (y : Str) (hy : y.head? ≠ some ' ') (k : Nat)
    (hk : n + y.length ≤ k) :
    (starRun (run (.cls (.lit ' '))) true k (List.replicate n ' ' ++ y)).flatMap
      (fun h => (run X h.2.1).map fun h2 => (h.1 ++ h2.1, h2.2.1, h.2.2 ++ h2.2.2)) = pre (List.replicate n ' ') (run X y) := by
  induction n generalizing k with
  | zero =>
    have h1 : run (.cls (.lit ' ')) y = [] := by
      cases y with
      | nil => rfl
      | cons c y =>
        have : (' ' == c) = false := by
          simp only [beq_eq_false_iff_ne, ne_eq]
          rintro rfl; exact hy rfl
        simp [run, CC.test, this]
    cases k with
    | zero => simp [starRun, pre]
    | succ k => simp [starRun, pre, h1]
  | succ n ih =>
    cases k with
    | zero => omega
    | succ k =>
      have ih := ih k (by omega)
      have h1 : run (.cls (.lit ' ')) (List.replicate (n + 1) ' ' ++ y) = [([' '], List.replicate n ' ' ++ y, [])] := by
        simp [run, CC.test, List.replicate_succ]
      have h2 : run X (List.replicate (n + 1) ' ' ++ y) = [] := by
        rw [List.replicate_succ, List.cons_append]; exact hX _
      have hp : ∀ L, pre (List.replicate (n + 1) ' ') L = pre [' '] (pre (List.replicate n ' ') L) := by
        intro L; rw [pre_pre, List.replicate_succ]; rfl
      rw [starRun, h1, hp, ← ih]
      simp only [List.filter_cons, List.isEmpty_cons, Bool.not_false, if_true, List.filter_nil, List.flatMap_cons, List.flatMap_nil,
        List.append_nil, List.flatMap_append, h2, List.map_nil, List.flatMap_map, pre, List.map_flatMap, List.map_map]
      rfl

theorem run_blanks (X : Re) (hX : ∀ z, run X (' ' :: z) = []) (n : Nat) (y : Str) (hy : y.head? ≠ some ' ') :
    run (.seq (.star true (.cls (.lit ' '))) X) (List.replicate n ' ' ++ y) = pre (List.replicate n ' ') (run X y) := by
  rw [run, run]
  exact starRun_blanks X hX n y hy _ (by simp)

theorem blanks_of (s : Str) : ∃ n y, s = List.replicate n ' ' ++ y ∧ y.head? ≠ some ' ' := by
  induction s with
  | nil => exact ⟨0, [], rfl, by simp⟩
  | cons c s ih =>
    by_cases hc : c = ' '
    · obtain ⟨n, y, rfl, hy⟩ := ih
      exact ⟨n + 1, y, by simp [hc, List.replicate_succ], hy⟩
    · exact ⟨0, c :: s, rfl, by simpa using hc⟩

/-- splits of a text, shortest first part first -/
def cuts : Str → List (Str × Str)
  | [] => [([], [])]
  | x :: y => ([], x :: y) :: (cuts y).map (fun q => (x :: q.1, q.2))

theorem starRun_any (s : Str) (k : Nat) (hk : s.length ≤ k) :
    starRun (run (.cls .anyc)) false k s = (cuts s).map (fun q => (q.1, q.2, [])) := by
  induction s generalizing k with
  | nil =>
    cases k with
    | zero => rfl
    | succ k => simp [starRun, run, cuts]
  | cons x y ih =>
    cases k with
    | zero => simp at hk
    | succ k =>
      have h1 : run (.cls .anyc) (x :: y) = [([x], y, [])] := by simp [run, CC.test]
      rw [starRun, h1]
      simp [ih k (by simpa using hk), cuts, Function.comp_def]

theorem cuts_find (g : Str → Bool) (s o r : Str) :
    (cuts s).find? (fun q => g q.2) = some (o, r) ↔ s = o ++ r ∧ g r = true ∧ ∀ o1 o2, o = o1 ++ o2 → o2 ≠ [] → g (o2 ++ r) = false := by
  induction s generalizing o with
  | nil =>
    simp only [cuts, List.find?_cons, List.find?_nil]
    constructor
    · intro h
      cases hg : g [] with
      | false => rw [hg] at h; cases h
      | true =>
        rw [hg] at h
        simp only [Option.some.injEq, Prod.mk.injEq] at h
        obtain ⟨rfl, rfl⟩ := h
        exact ⟨rfl, hg, by intro o1 o2 e h2; exact absurd (List.append_eq_nil_iff.1 e.symm).2 h2⟩
    · rintro ⟨e, hg, _⟩
      obtain ⟨rfl, rfl⟩ := List.append_eq_nil_iff.1 e.symm
      rw [hg]
  | cons x y ih =>
    rw [cuts, List.find?_cons]
    cases hg : g (x :: y) with
    | true =>
      simp only [Option.some.injEq, Prod.mk.injEq]
      constructor
      · rintro ⟨rfl, rfl⟩
        exact ⟨rfl, hg, by intro o1 o2 e h2; exact absurd (List.append_eq_nil_iff.1 e.symm).2 h2⟩
      · rintro ⟨e, h1, h2⟩
        cases o with
        | nil => exact ⟨rfl, by simpa using e⟩
        | cons z o =>
          have := h2 [] (z :: o) rfl (by simp)
          rw [← e, hg] at this; cases this
    | false =>
      simp only
      rw [List.find?_map]
      constructor
      · intro h
        obtain ⟨q, hq, e⟩ := Option.map_eq_some_iff.1 h
        simp only [Prod.mk.injEq] at e
        obtain ⟨rfl, rfl⟩ := e
        obtain ⟨e1, h1, h2⟩ := (ih q.1).1 hq
        refine ⟨by rw [List.cons_append, ← e1], h1, ?_⟩
        intro o1 o2 e hne
        cases o1 with
        | nil =>
          simp only [List.nil_append] at e
          rw [← e, List.cons_append, ← e1, hg]
        | cons z o1 =>
          simp only [List.cons_append, List.cons.injEq] at e
          exact h2 o1 o2 e.2 hne
      · rintro ⟨e, h1, h2⟩
        cases o with
        | nil =>
          rw [List.nil_append] at e
          rw [← e, hg] at h1; cases h1
        | cons z o =>
          simp only [List.cons_append, List.cons.injEq] at e
          refine Option.map_eq_some_iff.2 ⟨(o, r), (ih o).2 ⟨e.2, h1, ?_⟩, by simp [e.1]⟩
          intro o1 o2 e' hne
          exact h2 (z :: o1) o2 (by simp [e']) hne

/-- the lazy part -/
def lazyRe (host : Str) : Re := .seq (.cap hostGroup (Re.plus false (.cls .anyc))) (.look (.alt (promptRe (lits host)) .eos))

theorem atEnd_iff (host r : Str) : (run (.alt (promptRe (lits host)) .eos) r).isEmpty = false ↔ AtEnd host r := by
  have h1 : (run (promptRe (lits host)) r).isEmpty = false ↔ ∃ c r', (c = '#' ∨ c = '>') ∧ r = host ++ c :: r' := by
    by_cases hp : host <+: r
    · obtain ⟨y, rfl⟩ := hp
      rw [promptRe, run_lits_seq]
      cases y with
      | nil => simp [run, pre]
      | cons c y =>
        by_cases hc : c = '#' ∨ c = '>'
        · have : (CC.oneOf ['#', '>']).test c = true := by rcases hc with rfl | rfl <;> decide
          simp only [run, this, if_true, pre, List.map_cons, List.isEmpty_cons, true_iff]
          exact ⟨c, y, hc, rfl⟩
        · have : (CC.oneOf ['#', '>']).test c = false := by
            simp only [not_or] at hc
            simp [CC.test, hc.1, hc.2]
          simp only [run, this, Bool.false_eq_true, if_false, pre, List.map_nil, List.isEmpty_nil, Bool.true_eq_false, false_iff]
          rintro ⟨c', r', h', e⟩
          have := List.append_cancel_left e
          simp only [List.cons.injEq] at this
          rw [this.1] at hc
          exact hc h'
    · rw [promptRe, run_lits_no _ _ _ hp]
      simp only [List.isEmpty_nil, Bool.true_eq_false, false_iff]
      rintro ⟨c', r', h', e⟩
      exact hp ⟨_, e.symm⟩
  have h2 : (run .eos r).isEmpty = false ↔ r = [] ∨ r = c!"\n" := by
    simp only [run]
    split
    · rename_i h
      simp only [List.isEmpty_cons, true_iff]
      simpa using h
    · rename_i h
      simp only [List.isEmpty_nil, Bool.true_eq_false, false_iff]
      simpa using h
  rw [AtEnd, ← h1, ← h2]
  show (run (promptRe (lits host)) r ++ run .eos r).isEmpty = false ↔ _
  cases run (promptRe (lits host)) r <;> cases run .eos r <;> simp

theorem run_lazy (host s o : Str) : (∃ r, ((run (lazyRe host) s).head?).map (fun h => (h.1, h.2.1)) = some (o, r)) ↔
    ∃ r, s = o ++ r ∧ o ≠ [] ∧ AtEnd host r ∧ ∀ o1 o2, o = o1 ++ o2 → o1 ≠ [] → o2 ≠ [] → ¬ AtEnd host (o2 ++ r) := by
  cases s with
  | nil =>
    constructor
    · rintro ⟨r, h⟩; simp [lazyRe, Re.plus, run] at h
    · rintro ⟨r, e, h, _⟩; exact absurd (List.append_eq_nil_iff.1 e.symm).1 h
  | cons x y =>
    have hrun : run (.cap hostGroup (Re.plus false (.cls .anyc))) (x :: y) =
        (cuts y).map (fun q => (x :: q.1, q.2, [(hostGroup, x :: q.1)])) := by
      have h1 : run (.cls .anyc) (x :: y) = [([x], y, [])] := by simp [run, CC.test]
      have e : run (.star false (.cls .anyc)) y = (cuts y).map (fun q => (q.1, q.2, [])) := by
        rw [run]; exact starRun_any y _ (Nat.le_refl _)
      rw [run, Re.plus, run, h1]
      simp only [List.flatMap_cons, List.flatMap_nil, List.append_nil, e]
      simp [Function.comp_def]
    generalize hg : (fun r => !(run (.alt (promptRe (lits host)) .eos) r).isEmpty) = g
    have hgi : ∀ r, g r = true ↔ AtEnd host r := by
      intro r
      rw [← hg, ← atEnd_iff]; simp
    have hmain : ((run (lazyRe host) (x :: y)).head?).map (fun h => (h.1, h.2.1)) =
        ((cuts y).find? (fun q => g q.2)).map (fun q => (x :: q.1, q.2)) := by
      rw [lazyRe, run, hrun, List.flatMap_map]
      generalize cuts y = L
      induction L with
      | nil => rfl
      | cons q L ih =>
        rw [List.flatMap_cons, List.find?_cons, List.head?_append]
        have hl : run (.look (.alt (promptRe (lits host)) .eos)) q.2 = if g q.2 then [([], q.2, [])] else [] := by
          rw [run, ← hg]
          dsimp only
          by_cases hb : (run (.alt (promptRe (lits host)) .eos) q.2).isEmpty = true
          · rw [if_pos hb, if_neg (by simp only [hb]; decide)]
          · rw [if_neg hb, if_pos (by simpa using hb)]
        simp only [hl]
        cases g q.2 with
        | true => simp
        | false => simpa using ih
    rw [hmain]
    have hnot : ∀ r, g r = false ↔ ¬ AtEnd host r := by
      intro r; rw [← hgi]; simp
    constructor
    · rintro ⟨r, h⟩
      obtain ⟨q, hq, e⟩ := Option.map_eq_some_iff.1 h
      simp only [Prod.mk.injEq] at e
      obtain ⟨rfl, rfl⟩ := e
      obtain ⟨e1, h1, h2⟩ := (cuts_find g y q.1 q.2).1 hq
      refine ⟨q.2, by rw [List.cons_append, ← e1], by simp, (hgi _).1 h1, ?_⟩
      intro o1 o2 e hne1 hne2
      cases o1 with
      | nil => exact absurd rfl hne1
      | cons z o1 =>
        simp only [List.cons_append, List.cons.injEq] at e
        exact (hnot _).1 (h2 o1 o2 e.2 hne2)
    · rintro ⟨r, e, hne, h1, h2⟩
      cases o with
      | nil => exact absurd rfl hne
      | cons z o =>
        simp only [List.cons_append, List.cons.injEq] at e
        refine ⟨r, Option.map_eq_some_iff.2 ⟨(o, r), (cuts_find g y o r).2 ⟨e.2, (hgi _).2 h1, ?_⟩, by simp [e.1]⟩⟩
        intro o1 o2 e' hne2
        exact (hnot _).2 (h2 (z :: o1) o2 (by simp [e']) (by simp) hne2)

theorem pre_head (a : Str) (L : List Re.Hit) (b r : Str) :
    ((pre a L).head?).map (fun h => (h.1, h.2.1)) = some (b, r) ↔ ∃ o, b = a ++ o ∧ (L.head?).map (fun h => (h.1, h.2.1)) = some (o, r) := by
  cases L with
  | nil => simp [pre]
  | cons h L =>
    simp only [pre, List.map_cons, List.head?_cons, Option.map_some, Option.some.injEq, Prod.mk.injEq]
    constructor
    · rintro ⟨rfl, rfl⟩; exact ⟨h.1, rfl, rfl, rfl⟩
    · rintro ⟨o, rfl, rfl, rfl⟩; exact ⟨rfl, rfl⟩

/-- what comes after prompt and command -/
theorem run_command (host cmd s : Str) (hc : Command cmd) :
    (∃ a y, s = a ++ y ∧ Typed host cmd a ∧ run (commandRe (lits host) (lits cmd)) s = pre a (run (lazyRe host) y)) ∨
    (run (commandRe (lits host) (lits cmd)) s = [] ∧ ∀ a y, s = a ++ y → ¬ Typed host cmd a) := by
  obtain ⟨hne, hh, hl⟩ := hc
  have hseq : ∀ a b c s, run (.seq (.seq a b) c) s = run (.seq a (.seq b c)) s := by
    intro a b c s
    simp only [run, List.flatMap_map, List.map_flatMap, List.flatMap_assoc, List.map_map]
    refine flatMap_same _ _ _ ?_
    intro h _
    refine flatMap_same _ _ _ ?_
    intro h2 _
    simp [Function.comp_def]
  have hX1 : ∀ X z, run (.seq (lits cmd) X) (' ' :: z) = [] := by
    intro X z
    refine run_lits_no _ _ _ ?_
    rintro ⟨w, e⟩
    cases cmd with
    | nil => exact hne rfl
    | cons c cmd =>
      simp only [List.cons_append, List.cons.injEq] at e
      exact hh (by simp [e.1])
  have hX2 : ∀ X z, run (.seq (.cls (.lit '\n')) X) (' ' :: z) = [] := by
    intro X z
    simp [run, CC.test]
  have htyp : ∀ a y, s = a ++ y → Typed host cmd a →
      run (commandRe (lits host) (lits cmd)) s = pre a (run (lazyRe host) y) := by
    rintro a y rfl ⟨c, n, m, hch, rfl⟩
    have hct : (CC.oneOf ['#', '>']).test c = true := by rcases hch with rfl | rfl <;> decide
    rw [commandRe, promptRe, hseq]
    simp only [List.append_assoc, List.cons_append]
    rw [run_lits_seq]
    have h1 : ∀ X z, run (.seq (.cls (.oneOf ['#', '>'])) X) (c :: z) = pre [c] (run X z) := by
      intro X z; simp [run, hct, pre]
    have h2 : ∀ X z, run (.seq (.cls (.lit '\n')) X) ('\n' :: z) = pre ['\n'] (run X z) := by
      intro X z; simp [run, CC.test, pre]
    have hy1 : (cmd ++ (List.replicate m ' ' ++ c!"\n" ++ y)).head? ≠ some ' ' := by
      cases cmd with
      | nil => exact absurd rfl hne
      | cons d cmd => simpa using hh
    rw [h1, show (cmd ++ (List.replicate m ' ' ++ ('\n' :: ([] ++ y)))) = cmd ++ (List.replicate m ' ' ++ c!"\n" ++ y) by simp,
      run_blanks _ (hX1 _) n _ hy1, run_lits_seq]
    have : List.replicate m ' ' ++ c!"\n" ++ y = List.replicate m ' ' ++ ('\n' :: y) := by simp
    rw [this, run_blanks _ (hX2 _) m _ (by simp), h2]
    simp [pre_pre, lazyRe, promptRe]
  by_cases hex : ∃ a y, s = a ++ y ∧ Typed host cmd a
  · obtain ⟨a, y, e, ht⟩ := hex
    exact Or.inl ⟨a, y, e, ht, htyp a y e ht⟩
  · right
    refine ⟨?_, fun a y e ht => hex ⟨a, y, e, ht⟩⟩
    rw [commandRe, promptRe, hseq]
    by_cases hp : host <+: s
    · obtain ⟨s1, rfl⟩ := hp
      rw [run_lits_seq]
      cases s1 with
      | nil => simp [run, pre]
      | cons c s1 =>
        by_cases hct : (CC.oneOf ['#', '>']).test c = true
        · have h1 : ∀ X z, run (.seq (.cls (.oneOf ['#', '>'])) X) (c :: z) = pre [c] (run X z) := by
            intro X z; simp [run, hct, pre]
          rw [h1]
          obtain ⟨n, s2, rfl, h2⟩ := blanks_of s1
          rw [run_blanks _ (hX1 _) n s2 h2]
          by_cases hp2 : cmd <+: s2
          · obtain ⟨s3, rfl⟩ := hp2
            rw [run_lits_seq]
            obtain ⟨m, s4, rfl, h4⟩ := blanks_of s3
            rw [run_blanks _ (hX2 _) m s4 h4]
            cases s4 with
            | nil => simp [run, pre]
            | cons d s4 =>
              by_cases hd : d = '\n'
              · subst hd
                exfalso
                apply hex
                refine ⟨host ++ c :: (List.replicate n ' ' ++ (cmd ++ (List.replicate m ' ' ++ c!"\n"))), s4, by simp, c, n, m, ?_, rfl⟩
                simpa [CC.test] using hct
              · have : ('\n' == d) = false := by simpa using fun e => hd e.symm
                simp [run, CC.test, this, pre]
          · rw [run_lits_no _ _ _ hp2]; simp [pre]
        · simp [run, hct, pre]
    · rw [run_lits_no _ _ _ hp]

theorem typed_unique (host cmd : Str) (hc : Command cmd) (a a' y y' : Str) (e : a ++ y = a' ++ y') (h : Typed host cmd a) (h' : Typed host cmd a') :
    a = a' := by
  obtain ⟨hne, hh, hl⟩ := hc
  obtain ⟨c, n, m, hch, rfl⟩ := h
  obtain ⟨c', n', m', hch', rfl⟩ := h'
  have key : ∀ (n n' : Nat) (u v : Str), u.head? ≠ some ' ' → v.head? ≠ some ' ' → List.replicate n ' ' ++ u = List.replicate n' ' ' ++ v → n = n' := by
    intro n
    induction n with
    | zero =>
      intro n' u v hu hv e
      cases n' with
      | zero => rfl
      | succ n' =>
        simp only [List.replicate_zero, List.nil_append, List.replicate_succ, List.cons_append] at e
        exact absurd (by rw [e]; rfl) hu
    | succ n ih =>
      intro n' u v hu hv e
      cases n' with
      | zero =>
        simp only [List.replicate_zero, List.nil_append, List.replicate_succ, List.cons_append] at e
        exact absurd (by rw [← e]; rfl) hv
      | succ n' =>
        simp only [List.replicate_succ, List.cons_append, List.cons.injEq, true_and] at e
        rw [ih n' u v hu hv e]
  have hcm : ∀ z : Str, (cmd ++ z).head? ≠ some ' ' := by
    intro z
    cases cmd with
    | nil => exact absurd rfl hne
    | cons d cmd => simpa using hh
  simp only [List.append_assoc, List.cons_append] at e
  have e1 := List.append_cancel_left e
  simp only [List.cons.injEq] at e1
  obtain ⟨rfl, e1⟩ := e1
  have hn := key n n' _ _ (hcm _) (hcm _) e1
  subst hn
  have e2 := List.append_cancel_left (List.append_cancel_left e1)
  have hm := key m m' _ _ (by simp) (by simp) e2
  subst hm
  rfl

theorem blockAt_iff (host cmd s b : Str) (hc : Command cmd) :
    (∃ r, ((run (commandRe (lits host) (lits cmd)) s).head?).map (fun h => (h.1, h.2.1)) = some (b, r)) ↔ BlockAt host cmd s b := by
  rcases run_command host cmd s hc with ⟨a, y, rfl, ht, hr⟩ | ⟨hr, hno⟩
  · rw [hr]
    simp only [pre_head]
    constructor
    · rintro ⟨r, o, rfl, h⟩
      obtain ⟨r', e, h1, h2, h3⟩ := (run_lazy host y o).1 ⟨r, h⟩
      exact ⟨a, o, r', rfl, by rw [e], ht, h1, h2, h3⟩
    · rintro ⟨a', o, r, rfl, e, ht', h1, h2, h3⟩
      have := typed_unique host cmd hc a a' y _ e ht ht'
      subst this
      obtain ⟨r', h⟩ := (run_lazy host y o).2 ⟨r, List.append_cancel_left e, h1, h2, h3⟩
      exact ⟨r', o, rfl, h⟩
  · rw [hr]
    constructor
    · rintro ⟨r, h⟩; cases h
    · rintro ⟨a', o, r, rfl, e, ht', _⟩
      exact absurd ht' (hno _ _ e)

theorem scan_head (r : Re) (s : Str) (p : Nat) (b : Str) :
    ((scan r s p 0).head?).map Match.text = some b ↔
      ∃ pr s', s = pr ++ s' ∧ ((run r s').head?).map (·.1) = some b ∧ ∀ p1 p2, pr = p1 ++ p2 → p2 ≠ [] → run r (p2 ++ s') = [] := by
  induction s generalizing p with
  | nil =>
    rw [scan]
    constructor
    · intro h
      refine ⟨[], [], rfl, ?_, by intro p1 p2 e h2; exact absurd (List.append_eq_nil_iff.1 e.symm).2 h2⟩
      cases hr : run r [] with
      | nil => rw [hr] at h; cases h
      | cons x xs => rw [hr] at h; simpa using h
    · rintro ⟨pr, s', e, h, _⟩
      obtain ⟨rfl, rfl⟩ := List.append_eq_nil_iff.1 e.symm
      cases hr : run r [] with
      | nil => rw [hr] at h; cases h
      | cons x xs => rw [hr] at h; simpa using h
  | cons c s ih =>
    rw [scan]
    cases hr : run r (c :: s) with
    | nil =>
      dsimp only
      rw [ih]
      constructor
      · rintro ⟨pr, s', rfl, h, hall⟩
        refine ⟨c :: pr, s', rfl, h, ?_⟩
        intro p1 p2 e hne
        cases p1 with
        | nil =>
          simp only [List.nil_append] at e
          rw [← e]; simpa using hr
        | cons z p1 =>
          simp only [List.cons_append, List.cons.injEq] at e
          exact hall p1 p2 e.2 hne
      · rintro ⟨pr, s', e, h, hall⟩
        cases pr with
        | nil =>
          simp only [List.nil_append] at e
          rw [← e, hr] at h; cases h
        | cons z pr =>
          simp only [List.cons_append, List.cons.injEq] at e
          exact ⟨pr, s', e.2, h, fun p1 p2 e' => hall (z :: p1) p2 (by simp [e'])⟩
    | cons x xs =>
      simp only [List.head?_cons, Option.map_some, Option.some.injEq]
      constructor
      · rintro rfl
        exact ⟨[], c :: s, rfl, by rw [hr]; rfl, by intro p1 p2 e h2; exact absurd (List.append_eq_nil_iff.1 e.symm).2 h2⟩
      · rintro ⟨pr, s', e, h, hall⟩
        cases pr with
        | nil =>
          simp only [List.nil_append] at e
          rw [← e, hr] at h
          simpa using h
        | cons z pr =>
          have := hall [] (z :: pr) rfl (by simp)
          rw [← e, hr] at this; cases this

theorem search_block (host cmd s b : Str) (hc : Command cmd) :
    (Re.search (commandRe (lits host) (lits cmd)) s).map Match.text = some b ↔ CmdBlock host cmd s b := by
  rw [Re.search, finditer, scan_head]
  have h1 : ∀ s b, ((run (commandRe (lits host) (lits cmd)) s).head?).map (·.1) = some b ↔ BlockAt host cmd s b := by
    intro s b
    rw [← blockAt_iff host cmd s b hc]
    cases (run (commandRe (lits host) (lits cmd)) s).head? with
    | none => simp
    | some h => simp
  have h2 : ∀ s, run (commandRe (lits host) (lits cmd)) s = [] ↔ ∀ b, ¬ BlockAt host cmd s b := by
    intro s
    constructor
    · intro e b hb
      rw [← h1, e] at hb; cases hb
    · intro h
      cases e : run (commandRe (lits host) (lits cmd)) s with
      | nil => rfl
      | cons x xs => exact absurd ((h1 s x.1).1 (by rw [e]; rfl)) (h x.1)
  simp only [h1, h2, CmdBlock]

end TTP
