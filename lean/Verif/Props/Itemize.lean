import Verif.Props.Group
import Verif.Props.Dyn
/-!
# C75: `itemize` with a path

`itemize(key, path)` saves the value of one variable into a list of the results and leaves the record as it is.
-/

namespace Props
open Py Spec TTP TTP.GroupFn

/-- the list under a key of the results; nothing is an empty list -/
def listUnder (r : Dict Key Val) (k : Str) : Option (List Val) :=
  match Dict.get? r (.s k) with
  | none => some []
  | some (.list l) => some l
  | some _ => none

/-- saving one value into a list of the results -/
private theorem save_item (ti : Bool) (v : Val) (ht : v.truthy = true) (r : Dict Key Val) (name : Str) (hnn : name ≠ nullName)
    (hni : keyOf ti name = .s name) (old : List Val) (ho : listUnder r name = some old) :
    save ti false v [⟨name, 1⟩] (.dict r) = .ok (.dict (Dict.set r (.s name) (.list (old ++ [v])))) := by
  unfold save
  rw [modAt_one ti _ ⟨name, 1⟩ hnn]
  simp only [hni]
  unfold listUnder at ho
  cases hg : Dict.get? r (.s name) with
  | none =>
    rw [hg] at ho
    cases ho
    have e1 : freshDict ti [⟨name, 1⟩] = [(.s name, .list [])] := by simp [freshDict, hni]
    rw [e1, enterKey_of_missing _ _ _ _ hg]
    rw [Dict.set_of_not_mem _ _ _ ((Dict.get?_eq_none_iff _ _).1 hg)]
    simp [modAt, saveElem, ht, pure_ok, ok_bind]
  | some x =>
    rw [hg] at ho
    cases x with
    | list l =>
      cases ho
      rw [enterKey_of_get _ _ _ _ _ hg]
      simp [modAt, saveElem, ht, pure_ok, ok_bind]
    | _ => cases ho

/-- a name in a path: not empty, not the null name, and without dots, braces, asterisks and blanks -/
def PlainName (n : Str) : Prop := n ≠ [] ∧ n ≠ nullName ∧ ∀ c ∈ n, c ≠ '.' ∧ c ≠ '{' ∧ c ≠ '*' ∧ isSpace c = false

private theorem stars_plain (n : Str) (h : PlainName n) (k : Nat) : ∀ c ∈ n ++ List.replicate k '*', c ≠ '.' ∧ c ≠ '{' ∧ isSpace c = false := by
  intro c hc
  rcases List.mem_append.1 hc with h' | h'
  · exact ⟨(h.2.2 c h').1, (h.2.2 c h').2.1, (h.2.2 c h').2.2.2⟩
  · rw [List.eq_of_mem_replicate h']; decide

private theorem trailing_plain (n : Str) (h : PlainName n) (k : Nat) : trailingStars (n ++ List.replicate k '*') = k := by
  unfold trailingStars
  rw [List.reverse_append, List.reverse_replicate, List.takeWhile_append_of_pos (by intro c hc; rw [List.eq_of_mem_replicate hc]; decide)]
  have : n.reverse.takeWhile (· == '*') = [] := by
    cases hrv : n.reverse with
    | nil => rfl
    | cons c cs =>
      have : c ≠ '*' := (h.2.2 c (List.mem_reverse.1 (by rw [hrv]; simp))).2.2.1
      simp [this]
  rw [this]; simp

/-- C75. `itemize(key, path)` with a path of plain names, the last one with any number of asterisks: the value of the variable is added at
the end of the list of this path in the results; the path and the list are made if there are none. Nothing else in the results is
changed, and the record and its path stay as they are. -/
theorem C75_itemize_path (W : GroupFn.World) (ms : MS) (d : Dict Key Val) (key : Str) (v : Val) (hv : valueOf d key = some v)
    (ht : v.truthy = true) (hm : ms.record.merge = false) (ns : List Str) (name : Str) (hns : ∀ n ∈ ns, PlainName n) (hn : PlainName name)
    (hni : W.toInt = true → ∀ n ∈ ns ++ [name], isdigitS n = false) (r : Dict Key Val)
    (hr : ms.results = nest ns (.dict r) ∨ ms.results = .dict [] ∧ r = []) (stars : Nat) (old : List Val) (ho : listUnder r name = some old) :
    ∃ ms', GroupFn.builtin W (fn c!"itemize" [.str key, .str (join ['.'] (ns ++ [name ++ List.replicate stars '*']))]) ms (.dict d) =
        .ok (ms', .dict d, none) ∧
      ms'.results = nest ns (.dict (Dict.set r (.s name) (.list (old ++ [v])))) ∧ ms'.record = ms.record ∧ ms'.vars = ms.vars ∧
      ms'.gvars = ms.gvars ∧ ms'.started = ms.started ∧ ms'.ended = ms.ended := by
  have hk : ∀ n ∈ ns ++ [name], keyOf W.toInt n = .s n := by
    intro n hm
    unfold keyOf
    cases hti : W.toInt with
    | false => rfl
    | true => simp [hni hti n hm]
  have hcall : GroupFn.builtin W (fn c!"itemize" [.str key, .str (join ['.'] (ns ++ [name ++ List.replicate stars '*']))]) ms (.dict d) =
    GroupFn.itemize W.toInt ms (.dict d) (.str key) (some (.str (join ['.'] (ns ++ [name ++ List.replicate stars '*'])))) := rfl
  rw [hcall]
  have hch : ∀ w ∈ ns ++ [name ++ List.replicate stars '*'], ∀ c ∈ w, c ≠ '.' ∧ c ≠ '{' ∧ isSpace c = false := by
    intro w hw
    rcases List.mem_append.1 hw with h | h
    · have := stars_plain w (hns w h) 0
      simpa using this
    · rw [List.mem_singleton.1 h]; exact stars_plain name hn stars
  have hsplit : (split ['.'] (join ['.'] (ns ++ [name ++ List.replicate stars '*']))).map strip = ns ++ [name ++ List.replicate stars '*'] := by
    rw [split_char, splitC_join _ _ (by simp) (fun w hw hc => (hch w hw _ hc).1 rfl)]
    conv => rhs; rw [← List.map_id (ns ++ [name ++ List.replicate stars '*'])]
    exact List.map_congr_left (fun w hw => strip_none w (fun c hc => (hch w hw c hc).2.2))
  have hb : name.getLast? ≠ some '*' := fun h => (hn.2.2 '*' (List.mem_of_getLast? h)).2.2.1 rfl
  have hstar : oneStarPath (ns ++ [name ++ List.replicate stars '*']) = .ok (ns ++ [name ++ ['*']]) := by
    unfold oneStarPath
    simp only [List.getLast?_append, List.getLast?_singleton, Option.some_or, List.dropLast_concat]
    rw [oneStar_eq name stars hb]; rfl
  have hstat : StaticPath (ns ++ [name ++ ['*']]) := by
    intro i hi hc
    rcases List.mem_append.1 hi with h | h
    · exact ((hns i h).2.2 _ hc).2.1 rfl
    · rw [List.mem_singleton.1 h] at hc
      exact (stars_plain name hn 1 _ hc).2.1 rfl
  have hparse : parsePath (ns ++ [name ++ ['*']]) = ns.map (⟨·, 0⟩) ++ [⟨name, 1⟩] := by
    unfold parsePath
    rw [List.map_append]
    congr 1
    · refine List.map_congr_left (fun n hm => ?_)
      have := trailing_plain n (hns n hm) 0
      rw [List.replicate_zero, List.append_nil] at this
      rw [this]; simp
    · have : trailingStars (name ++ ['*']) = 1 := trailing_plain name hn 1
      rw [List.map_singleton, this]; simp
  have hnn : ∀ n ∈ ns, n ≠ nullName ∧ keyOf W.toInt n = .s n := fun n hm => ⟨(hns n hm).2.1, hk n (by simp [hm])⟩
  have hone := save_item W.toInt v ht r name hn.2.1 (hk name (by simp)) old ho
  have hsave : save W.toInt false v (ns.map (⟨·, 0⟩) ++ [⟨name, 1⟩]) ms.results =
      .ok (nest ns (.dict (Dict.set r (.s name) (.list (old ++ [v]))))) := by
    rcases hr with hr | ⟨hr, rfl⟩
    · rw [hr]; exact save_nest W.toInt v ns hnn _ hn.2.1 _ _ hone
    · rw [hr]; exact save_first W.toInt v ns hnn _ hn.2.1 _ hone
  obtain ⟨c, cs, hcs⟩ : ∃ c cs, join ['.'] (ns ++ [name ++ List.replicate stars '*']) = c :: cs := by
    cases hj : join ['.'] (ns ++ [name ++ List.replicate stars '*']) with
    | cons c cs => exact ⟨c, cs, rfl⟩
    | nil =>
      have h := splitC_join '.' (ns ++ [name ++ List.replicate stars '*']) (by simp) (fun w hw hc => (hch w hw _ hc).1 rfl)
      rw [hj] at h
      have h2 : name ++ List.replicate stars '*' ∈ splitC '.' [] := by rw [h]; simp
      have h3 : name ++ List.replicate stars '*' = [] := by simpa [splitC] using h2
      exact absurd (List.append_eq_nil_iff.1 h3).1 hn.1
  refine ⟨{ ms with dynCache := cacheUpdate ms.dynCache d, results := nest ns (.dict (Dict.set r (.s name) (.list (old ++ [v])))) },
    ?_, rfl, rfl, rfl, rfl, rfl, rfl⟩
  unfold valueOf at hv
  unfold GroupFn.itemize
  rw [hcs] at hsplit ⊢
  show (match Dict.get? d (.s key) with | none => _ | some v => _ : PyM _) = _
  simp only [hv, hsplit, hstar, ok_bind, formPath_static _ _ hstat, hparse, hm, hsave]
  rfl

/-- the hypotheses are met: two values saved at `a.ports*` -/
example : PlainName c!"a" ∧ PlainName c!"ports" ∧ listUnder [(.s c!"ports", .list [.str c!"Gi1"])] c!"ports" = some [.str c!"Gi1"] ∧
    join ['.'] ([c!"a"] ++ [c!"ports" ++ List.replicate 1 '*']) = c!"a.ports*" ∧
    nest [c!"a"] (.dict [(.s c!"ports", .list [])]) = .dict [(.s c!"a", .dict [(.s c!"ports", .list [])])] :=
  ⟨by unfold PlainName; decide, by unfold PlainName; decide, rfl, by decide, rfl⟩

end Props
