import Verif.Proofs.OneLine
import Verif.Spec.Headers
/-! # Lemmas: the expression of a line of headings -/

namespace TTP
open Py Spec Re

/-! ## First matches -/

theorem first_seq (a b : Re) (s : Str) (h1 h2 : Re.Hit) (ha : (run a s).head? = some h1) (hb : (run b h1.2.1).head? = some h2) :
    (run (.seq a b) s).head? = some (h1.1 ++ h2.1, h2.2.1, h1.2.2 ++ h2.2.2) := by
  cases e1 : run a s with
  | nil => rw [e1] at ha; cases ha
  | cons x xs =>
    rw [e1] at ha
    simp only [List.head?_cons, Option.some.injEq] at ha
    subst ha
    cases e2 : run b x.2.1 with
    | nil => rw [e2] at hb; cases hb
    | cons y ys =>
      rw [e2] at hb
      simp only [List.head?_cons, Option.some.injEq] at hb
      subst hb
      simp [run, e1, e2]

theorem first_cap (n : Str) (r : Re) (s : Str) (h : Re.Hit) (hr : (run r s).head? = some h) :
    (run (.cap n r) s).head? = some (h.1, h.2.1, h.2.2 ++ [(n, h.1)]) := by
  simp only [run, List.head?_map, hr, Option.map_some]

theorem run_dots (n : Nat) (x rest : Str) (hx : '\n' ∉ x) :
    run (dots n) (x ++ '\n' :: rest) = if n ≤ x.length then [(x.take n, x.drop n ++ '\n' :: rest, [])] else [] := by
  induction n generalizing x with
  | zero => simp [dots, run]
  | succ n ih =>
    cases x with
    | nil => simp [dots, run, CC.test]
    | cons c x =>
      simp only [List.mem_cons, not_or] at hx
      have hc : (c != '\n') = true := by simpa using fun e => hx.1 e.symm
      simp only [dots, run, List.cons_append, CC.test, hc, if_true, List.flatMap_cons, List.flatMap_nil, List.append_nil, ih x hx.2,
        List.length_cons, Nat.add_le_add_iff_right]
      split <;> simp

theorem first_upTo (n : Nat) (x rest : Str) (hx : '\n' ∉ x) :
    (run (upTo n) (x ++ '\n' :: rest)).head? = some (x.take n, x.drop n ++ '\n' :: rest, []) := by
  induction n generalizing x with
  | zero => simp [upTo, run]
  | succ n ih =>
    cases x with
    | nil => simp [upTo, run, CC.test]
    | cons c x =>
      simp only [List.mem_cons, not_or] at hx
      have hc : (c != '\n') = true := by simpa using fun e => hx.1 e.symm
      have h1 : (run (.cls .dot) (c :: x ++ '\n' :: rest)).head? = some ([c], x ++ '\n' :: rest, []) := by
        simp [run, CC.test, hc]
      have := first_seq (.cls .dot) (upTo n) _ _ _ h1 (ih x hx.2)
      rw [upTo, run, List.head?_append, this]
      simp

theorem starRun_dots (x rest : Str) (hx : '\n' ∉ x) (k : Nat) (hk : x.length ≤ k) :
    (starRun (run (.cls .dot)) true k (x ++ '\n' :: rest)).head? = some (x, '\n' :: rest, []) := by
  induction x generalizing k with
  | nil =>
    cases k with
    | zero => rfl
    | succ k => simp [starRun, run, CC.test]
  | cons c x ih =>
    simp only [List.mem_cons, not_or] at hx
    have hc : (c != '\n') = true := by simpa using fun e => hx.1 e.symm
    cases k with
    | zero => simp at hk
    | succ k =>
      have := ih hx.2 k (by simpa using hk)
      have h1 : run (.cls .dot) (c :: x ++ '\n' :: rest) = [([c], x ++ '\n' :: rest, [])] := by simp [run, CC.test, hc]
      rw [starRun, h1]
      simp [List.head?_append, this]

theorem first_star (x rest : Str) (hx : '\n' ∉ x) : (run (.star true (.cls .dot)) (x ++ '\n' :: rest)).head? = some (x, '\n' :: rest, []) := by
  rw [run]
  exact starRun_dots x rest hx _ (by simp)

theorem first_more (b : Re) (c : Char) (x rest : Str) (hx : '\n' ∉ c :: x) (h : Re.Hit)
    (hb : (run b (x ++ '\n' :: rest)).head? = some h) :
    (run (.seq (.cls .dot) b) (c :: x ++ '\n' :: rest)).head? = some (c :: h.1, h.2.1, h.2.2) := by
  simp only [List.mem_cons, not_or] at hx
  have hc : (c != '\n') = true := by simpa using fun e => hx.1 e.symm
  have h1 : (run (.cls .dot) (c :: x ++ '\n' :: rest)).head? = some ([c], x ++ '\n' :: rest, []) := by
    simp [run, CC.test, hc]
  have := first_seq (.cls .dot) b _ _ _ h1 hb
  simpa using this

theorem none_more (b : Re) (rest : Str) : run (.seq (.cls .dot) b) ('\n' :: rest) = [] := by simp [run, CC.test]

/-! ## Columns -/

/-- cells of columns of given widths -/
def cellsOf : List (Str × Nat) → Str → List (Str × Str)
  | [], _ => []
  | c :: cs, x => (c.1, x.take c.2) :: cellsOf cs (x.drop c.2)

/-- all widths together -/
def widthSum (cs : List (Str × Nat)) : Nat := (cs.map Prod.snd).sum

theorem zip_cutAt (cs : List (Str × Nat)) (ns : List Str) (ws : List Nat) (x : Str) :
    (cs.map Prod.fst ++ ns).zip (cutAt (cs.map Prod.snd ++ ws) x) = cellsOf cs x ++ ns.zip (cutAt ws (x.drop (widthSum cs))) := by
  induction cs generalizing x with
  | nil => simp [cellsOf, widthSum]
  | cons c cs ih => simp [cutAt, cellsOf, ih, widthSum, List.drop_drop]

theorem run_exact (cs : List (Str × Nat)) (R : List Re) (x rest : Str) (hx : '\n' ∉ x) :
    run (seqs (cs.map (fun c => .cap c.1 (dots c.2)) ++ R)) (x ++ '\n' :: rest) =
      if widthSum cs ≤ x.length then
        (run (seqs R) (x.drop (widthSum cs) ++ '\n' :: rest)).map (fun h => (x.take (widthSum cs) ++ h.1, h.2.1, cellsOf cs x ++ h.2.2))
      else [] := by
  induction cs generalizing x with
  | nil => simp [widthSum, cellsOf]
  | cons c cs ih =>
    have hsum : widthSum (c :: cs) = c.2 + widthSum cs := by simp [widthSum]
    simp only [List.map_cons, List.cons_append, seqs, run, run_dots _ _ _ hx]
    by_cases h1 : c.2 ≤ x.length
    · have hx2 : '\n' ∉ x.drop c.2 := fun h => hx (List.mem_of_mem_drop h)
      simp only [h1, if_true, List.map_cons, List.map_nil, List.flatMap_cons, List.flatMap_nil, List.append_nil, ih _ hx2, List.length_drop,
        hsum, List.nil_append]
      by_cases h2 : widthSum cs ≤ x.length - c.2
      · have h3 : c.2 + widthSum cs ≤ x.length := by omega
        simp only [h2, h3, if_true, List.map_map, List.drop_drop, cellsOf, List.take_add]
        apply List.map_congr_left
        intro h _
        simp
      · have h3 : ¬ c.2 + widthSum cs ≤ x.length := by omega
        simp [h2, h3]
    · have h3 : ¬ c.2 + widthSum cs ≤ x.length := by omega
      simp [h1, hsum, h3]

theorem first_optional (cs : List (Str × Nat)) (n : Str) (x rest : Str) (hx : '\n' ∉ x) :
    (run (seqs (cs.map (fun c => .cap c.1 (upTo c.2)) ++ [.cap n (.star true (.cls .dot))])) (x ++ '\n' :: rest)).head? =
      some (x, '\n' :: rest, cellsOf cs x ++ [(n, x.drop (widthSum cs))]) := by
  induction cs generalizing x with
  | nil =>
    have h1 := first_cap n _ _ _ (first_star x rest hx)
    have h2 := first_seq (.cap n (.star true (.cls .dot))) (seqs []) _ _ ([], '\n' :: rest, []) h1 (by simp [seqs, run])
    simpa [seqs, cellsOf, widthSum] using h2
  | cons c cs ih =>
    have hx2 : '\n' ∉ x.drop c.2 := fun h => hx (List.mem_of_mem_drop h)
    have h1 := first_cap c.1 _ _ _ (first_upTo c.2 x rest hx)
    have h2 := first_seq _ (seqs (cs.map (fun c => .cap c.1 (upTo c.2)) ++ [.cap n (.star true (.cls .dot))])) _ _ _ h1 (ih _ hx2)
    simpa [seqs, cellsOf, widthSum, List.drop_drop] using h2

/-! ## The whole expression -/

/-- the columns: exact ones, the last mandatory one, optional ones -/
theorem first_row_opt (cs : List (Str × Nat)) (m : Str × Nat) (hm : 1 ≤ m.2) (os : List (Str × Nat)) (n : Str) (x rest : Str) (hx : '\n' ∉ x) :
    (run (seqs (cs.map (fun c => .cap c.1 (dots c.2)) ++ (.cap m.1 (.seq (.cls .dot) (upTo (m.2 - 1))) ::
      (os.map (fun c => .cap c.1 (upTo c.2)) ++ [.cap n (.star true (.cls .dot))])))) (x ++ '\n' :: rest)).head? =
      if widthSum cs < x.length then some (x, '\n' :: rest, cellsOf (cs ++ m :: os) x ++ [(n, x.drop (widthSum (cs ++ m :: os)))]) else none := by
  have hcells : ∀ y, cellsOf (cs ++ m :: os) y = cellsOf cs y ++ (m.1, (y.drop (widthSum cs)).take m.2) :: cellsOf os (y.drop (widthSum cs + m.2)) := by
    intro y
    clear hx
    induction cs generalizing y with
    | nil => simp [cellsOf, widthSum]
    | cons c cs ih => simp [cellsOf, ih, widthSum, List.drop_drop, Nat.add_assoc]
  have hsum : widthSum (cs ++ m :: os) = widthSum cs + (m.2 + widthSum os) := by simp [widthSum]
  rw [run_exact _ _ _ _ hx]
  by_cases h1 : widthSum cs < x.length
  · rw [if_pos (Nat.le_of_lt h1), if_pos h1, List.head?_map]
    generalize hy : x.drop (widthSum cs) = y
    have hyn : '\n' ∉ y := fun h => hx (List.mem_of_mem_drop (hy ▸ h))
    cases y with
    | nil =>
      have := congrArg List.length hy
      simp only [List.length_drop, List.length_nil] at this
      omega
    | cons c y =>
      have hy2 : '\n' ∉ y := fun h => hyn (by simp [h])
      have a1 := first_cap m.1 _ _ _ (first_more (upTo (m.2 - 1)) c y rest hyn _ (first_upTo (m.2 - 1) y rest hy2))
      have hy3 : '\n' ∉ y.drop (m.2 - 1) := fun h => hy2 (List.mem_of_mem_drop h)
      have a2 := first_seq _ (seqs (os.map (fun c => .cap c.1 (upTo c.2)) ++ [.cap n (.star true (.cls .dot))])) _ _ _ a1
        (first_optional os n _ rest hy3)
      rw [seqs, a2]
      have e1 : (c :: y).take m.2 = c :: y.take (m.2 - 1) := by
        obtain ⟨k, hk⟩ : ∃ k, m.2 = k + 1 := ⟨m.2 - 1, by omega⟩
        rw [hk]; simp
      have e2 : x.drop (widthSum cs + m.2) = y.drop (m.2 - 1) := by
        rw [← List.drop_drop, hy]
        obtain ⟨k, hk⟩ : ∃ k, m.2 = k + 1 := ⟨m.2 - 1, by omega⟩
        rw [hk]; simp
      have e3 : x.drop (widthSum cs + (m.2 + widthSum os)) = y.drop (m.2 - 1 + widthSum os) := by
        rw [← Nat.add_assoc, ← List.drop_drop, e2, List.drop_drop]
      have e4 : x.take (widthSum cs) ++ c :: y = x := by rw [← hy, List.take_append_drop]
      simp only [Option.map_some, hcells, hsum, hy, e1, e2, e3, List.cons_append, List.nil_append, List.take_append_drop, e4, List.append_assoc,
        List.drop_drop]
  · rw [if_neg h1]
    split
    · have h2 : x.drop (widthSum cs) = [] := List.drop_eq_nil_of_le (by omega)
      simp [h2, seqs, run, CC.test]
    · rfl

theorem first_row_all (cs : List (Str × Nat)) (n : Str) (x rest : Str) (hx : '\n' ∉ x) :
    (run (seqs (cs.map (fun c => .cap c.1 (dots c.2)) ++ [.cap n (Re.plus true (.cls .dot))])) (x ++ '\n' :: rest)).head? =
      if widthSum cs < x.length then some (x, '\n' :: rest, cellsOf cs x ++ [(n, x.drop (widthSum cs))]) else none := by
  rw [run_exact _ _ _ _ hx]
  by_cases h1 : widthSum cs < x.length
  · rw [if_pos (Nat.le_of_lt h1), if_pos h1, List.head?_map]
    generalize hy : x.drop (widthSum cs) = y
    have hyn : '\n' ∉ y := fun h => hx (List.mem_of_mem_drop (hy ▸ h))
    cases y with
    | nil =>
      have := congrArg List.length hy
      simp only [List.length_drop, List.length_nil] at this
      omega
    | cons c y =>
      have hy2 : '\n' ∉ y := fun h => hyn (by simp [h])
      have a1 := first_cap n _ _ _ (first_more (.star true (.cls .dot)) c y rest hyn _ (first_star y rest hy2))
      have a2 := first_seq (.cap n (Re.plus true (.cls .dot))) (seqs []) _ _ ([], '\n' :: rest, []) a1 (by simp [seqs, run])
      rw [seqs, a2]
      have e4 : x.take (widthSum cs) ++ c :: y = x := by rw [← hy, List.take_append_drop]
      simp [e4]
  · rw [if_neg h1]
    split
    · have h2 : x.drop (widthSum cs) = [] := List.drop_eq_nil_of_le (by omega)
      simp [h2, seqs, run, CC.test, Re.plus]
    · rfl

/-- from the columns to the whole line -/
theorem headerRe_oneLine (row : List (Str × Re)) (f : Str → Option Caps)
    (h : ∀ x rest, '\n' ∉ x → (run (seqs (row.map (fun c => .cap c.1 c.2))) (x ++ '\n' :: rest)).head? = (f x).map (fun c => (x, '\n' :: rest, c))) :
    OneLine (headerRe row) f := by
  refine ⟨?_, ?_, ?_, ?_⟩
  · intro t rest ht
    have h1 := h t rest ht
    have hl : ∀ s, run (.look (.alt (Re.lits c!"\n") (Re.lits c!"\r\n"))) ('\n' :: s) = [([], '\n' :: s, [])] := by
      intro s; simp [run, lits, CC.test]
    cases hf : f t with
    | none =>
      rw [hf] at h1
      simp only [Option.map_none, List.head?_eq_none_iff] at h1
      simp [headerRe, run, CC.test, h1]
    | some c =>
      rw [hf] at h1
      simp only [Option.map_some] at h1
      have a1 := first_seq _ (.look (.alt (Re.lits c!"\n") (Re.lits c!"\r\n"))) _ _ _ h1 (by rw [hl]; rfl)
      have a0 : (run (.cls (.lit '\n')) ('\n' :: (t ++ '\n' :: rest))).head? = some (['\n'], t ++ '\n' :: rest, []) := by simp [run, CC.test]
      have a2 := first_seq _ _ _ _ _ a0 a1
      rw [headerRe, a2]
      simp
  · intro c s hc
    have hc' : (('\n' : Char) == c) = false := by simpa using fun e => hc e.symm
    simp [headerRe, run, CC.test, hc']
  · cases hr : run (headerRe row) ['\n'] with
    | nil => rfl
    | cons h0 hs =>
      exfalso
      have hm : h0 ∈ run (headerRe row) ['\n'] := by rw [hr]; simp
      rw [headerRe, mem_seq] at hm
      obtain ⟨h1, m1, h2, m2, _⟩ := hm
      rw [mem_cls] at m1
      have hs1 := run_split _ _ _ (show h1 ∈ run (.cls (.lit '\n')) ['\n'] from by rw [mem_cls]; exact m1)
      obtain ⟨e1, e2⟩ : h1.1 = ['\n'] ∧ h1.2.1 = [] := by
        revert m1 hs1
        rcases h1 with ⟨a, b, c⟩
        grind
      rw [e2, mem_seq] at m2
      obtain ⟨h3, m3, h4, m4, _⟩ := m2
      have hs3 := run_split _ _ _ m3
      have e3 : h3.2.1 = [] := (List.append_eq_nil_iff.1 hs3).2
      rw [e3] at m4
      simp [run, lits] at m4
  · simp [headerRe, run]

end TTP
