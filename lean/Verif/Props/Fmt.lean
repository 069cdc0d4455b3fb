import Verif.Spec.Fmt
import Verif.Props.Group
import Verif.Props.MatchStr
/-!
# C117: format strings
-/

namespace TTP.Fmt
open Py Spec TTP

variable (special : Str → List Val → Dict Str Val → PyM Str) (pos : List Val) (kw : Dict Str Val)

theorem run_text (num : Num) (s rest : Str) :
    run special pos kw num none (FPart.source (.text s) ++ rest) = (do let r ← run special pos kw num none rest; pure (s ++ r)) := by
  induction s with
  | nil =>
    show run special pos kw num none rest = _
    cases run special pos kw num none rest <;> rfl
  | cons c s ih =>
    have e : FPart.source (.text (c :: s)) = (if c = '{' ∨ c = '}' then [c, c] else [c]) ++ FPart.source (.text s) := rfl
    rw [e]
    have fin : (do let r ← (do let r ← run special pos kw num none rest; pure (s ++ r)); pure (c :: r) : PyM Str) =
        (do let r ← run special pos kw num none rest; pure (c :: s ++ r)) := by
      cases run special pos kw num none rest <;> rfl
    rw [← fin, ← ih]
    by_cases h1 : c = '{'
    · subst h1; rfl
    · by_cases h2 : c = '}'
      · subst h2; rfl
      · rw [if_neg (by simp [h1, h2])]
        show run special pos kw num none (c :: (FPart.source (.text s) ++ rest)) = _
        rw [run.eq_def]
        split <;> simp_all

theorem run_field (num : Num) (n rest : Str) (acc : Str) (hn : ∀ c ∈ n, c ≠ '{' ∧ c ≠ '}') :
    run special pos kw num (some acc) (n ++ '}' :: rest) =
      (do let r ← renderField special pos kw num (acc.reverse ++ n); let t ← run special pos kw r.2 none rest; pure (r.1 ++ t)) := by
  induction n generalizing acc with
  | nil => rw [List.nil_append, List.append_nil, run.eq_def]; rfl
  | cons c n ih =>
    have hc := hn c (by simp)
    have : run special pos kw num (some acc) (c :: n ++ '}' :: rest) = run special pos kw num (some (c :: acc)) (n ++ '}' :: rest) := by
      show run special pos kw num (some acc) (c :: (n ++ '}' :: rest)) = _
      rw [run.eq_def]
      split <;> simp_all
    rw [this, ih _ (fun d hd => hn d (by simp [hd]))]
    simp

theorem run_value (num : Num) (n rest : Str) (hn : ∀ c ∈ n, c ≠ '{' ∧ c ≠ '}') :
    run special pos kw num none (FPart.source (.value n) ++ rest) =
      (do let r ← renderField special pos kw num n; let t ← run special pos kw r.2 none rest; pure (r.1 ++ t)) := by
  have h := run_field special pos kw num n rest [] hn
  rw [List.reverse_nil, List.nil_append] at h
  rw [← h]
  show run special pos kw num none ('{' :: ((n ++ ['}']) ++ rest)) = _
  rw [List.append_assoc]
  cases n with
  | nil => rfl
  | cons c n =>
    show run special pos kw num none ('{' :: c :: (n ++ ('}' :: rest))) = _
    have hc := (hn c (by simp)).1
    rw [run.eq_def]
    split <;> simp_all
    all_goals grind

theorem render_plain (num : Num) (n : Str) (hn : PlainName n) :
    renderField special pos kw num n = (match Dict.get? kw n with
      | some v => .ok (pyStr v, num)
      | none => .error .keyError) := by
  unfold renderField
  have h1 : plainField n = true := by
    unfold plainField
    rw [List.all_eq_true]
    intro c hc
    have := hn.2 c hc
    simp only [List.mem_cons, List.not_mem_nil, or_false, not_or] at this
    simp [this]
  obtain ⟨c, hc, hd⟩ := hn.1
  have h2 : n ≠ [] := by rintro rfl; cases hc
  have h3 : n.all isDigit = false := by
    rw [List.all_eq_false]; exact ⟨c, hc, by simp [hd]⟩
  rw [if_pos h1]
  unfold fieldVal
  rw [if_neg h2, h3]
  cases Dict.get? kw n <;> rfl

theorem plain_braces {n : Str} (hn : PlainName n) : ∀ c ∈ n, c ≠ '{' ∧ c ≠ '}' := by
  intro c hc
  have := hn.2 c hc
  simp only [List.mem_cons, List.not_mem_nil, or_false, not_or] at this
  exact ⟨this.2.2.2.2.1, this.2.2.2.2.2⟩

/-- names only: the values, or `KeyError` -/
theorem format_names (ps : List FPart) (hp : ∀ n, FPart.value n ∈ ps → PlainName n) (num : Num) :
    (∀ t, FilledIn (Dict.get? kw) ps t → run special pos kw num none (fmtSource ps) = .ok t) ∧
    ((∃ n, FPart.value n ∈ ps ∧ Dict.get? kw n = none) → run special pos kw num none (fmtSource ps) = .error .keyError) := by
  induction ps with
  | nil =>
    refine ⟨fun t h => by cases h; rfl, ?_⟩
    rintro ⟨n, h, _⟩; cases h
  | cons p ps ih =>
    have ih := ih (fun n h => hp n (by simp [h]))
    cases p with
    | text s =>
      have e : fmtSource (.text s :: ps) = FPart.source (.text s) ++ fmtSource ps := rfl
      rw [e, run_text]
      refine ⟨fun t h => ?_, ?_⟩
      · cases h with
        | text h => rw [ih.1 _ h]; rfl
      · rintro ⟨n, h, hn⟩
        rw [ih.2 ⟨n, by simpa using h, hn⟩]; rfl
    | value n =>
      have e : fmtSource (.value n :: ps) = FPart.source (.value n) ++ fmtSource ps := rfl
      have hn := hp n (by simp)
      rw [e, run_value _ _ _ _ _ _ (plain_braces hn), render_plain _ _ _ _ _ hn]
      refine ⟨fun t h => ?_, ?_⟩
      · cases h with
        | value hv h => rw [hv]; simp only [ok_bind]; rw [ih.1 _ h]; rfl
      · rintro ⟨m, h, hm⟩
        cases hv : Dict.get? kw n with
        | none => rfl
        | some v =>
          have hmn : m ≠ n := by rintro rfl; rw [hv] at hm; cases hm
          rcases List.mem_cons.1 h with h | h
          · cases h; exact absurd rfl hmn
          · simp only [ok_bind]
            rw [ih.2 ⟨m, h, hm⟩]; rfl

/-- `{0}` any number of times -/
theorem format_zero (v : Val) (rest : List Val) (hpos : pos = v :: rest) (ps : List FPart) (hp : ∀ n, FPart.value n ∈ ps → n = c!"0") (num : Num) (hnum : ∀ k, num ≠ .auto k)
    (t : Str) (h : FilledIn (fun _ => some v) ps t) : run special pos kw num none (fmtSource ps) = .ok t := by
  induction h generalizing num with
  | nil => rfl
  | @text s ps t h ih =>
    have e : fmtSource (.text s :: ps) = FPart.source (.text s) ++ fmtSource ps := rfl
    rw [e, run_text, ih (fun n h => hp n (by simp [h])) num hnum]
    rfl
  | @value n w ps t hv h ih =>
    cases hv
    have e : fmtSource (.value n :: ps) = FPart.source (.value n) ++ fmtSource ps := rfl
    have hn := hp n (by simp)
    subst hn
    have hr : renderField special pos kw num c!"0" = .ok (pyStr v, .manual) := by
      unfold renderField
      rw [if_pos (by decide)]
      unfold fieldVal
      rw [if_neg (by decide), if_pos (by decide)]
      have hz : natOfDigits c!"0" = 0 := by decide
      cases num with
      | auto k => exact absurd rfl (hnum k)
      | unknown => simp only [hz, hpos]; rfl
      | manual => simp only [hz, hpos]; rfl
    rw [e, run_value _ _ _ _ _ _ (by decide), hr]
    simp only [ok_bind]
    rw [ih (fun n h => hp n (by simp [h])) .manual (by intro k h; cases h)]
    rfl

/-- `{}` once -/
theorem format_once (v : Val) (a b : Str) (hpos : pos = [v]) :
    run special pos kw .unknown none (fmtSource [.text a, .value [], .text b]) = .ok (a ++ (pyStr v ++ b)) := by
  have e : fmtSource [.text a, .value [], .text b] = FPart.source (.text a) ++ (FPart.source (.value []) ++ (FPart.source (.text b) ++ [])) := rfl
  rw [e, run_text, run_value _ _ _ _ _ _ (by simp)]
  have hr : renderField special pos kw .unknown [] = .ok (pyStr v, .auto 1) := by rw [hpos]; rfl
  rw [hr]
  simp only [ok_bind]
  rw [run_text]
  have : run special pos kw (.auto 1) none [] = .ok [] := rfl
  rw [this]
  simp only [ok_bind, pure_ok, List.append_nil]

end TTP.Fmt

namespace Props
open Py Spec TTP

theorem kwargsOf_asDict (kvs : List (Str × Val)) : Fmt.kwargsOf (asDict kvs) = .ok kvs := by
  induction kvs with
  | nil => rfl
  | cons kv kvs ih =>
    have e : asDict (kv :: kvs) = (.s kv.1, kv.2) :: asDict kvs := rfl
    rw [e, Fmt.kwargsOf, ih]
    rfl

theorem valueOf_asDict (kvs : List (Str × Val)) (n : Str) : valueOf (asDict kvs) n = Dict.get? kvs n := by
  unfold valueOf
  induction kvs with
  | nil => rfl
  | cons kv kvs ih =>
    have e : asDict (kv :: kvs) = (.s kv.1, kv.2) :: asDict kvs := rfl
    have e2 : Dict.get? (kv :: kvs) n = if kv.1 = n then some kv.2 else Dict.get? kvs n := rfl
    rw [e, Dict.get?_cons, e2, ih]
    by_cases h : kv.1 = n
    · subst h; simp
    · rw [if_neg h, if_neg (fun e => h (by injection e))]

theorem filled_congr (f g : Str → Option Val) (ps : List FPart) (t : Str) (h : ∀ n, FPart.value n ∈ ps → f n = g n) (ht : FilledIn f ps t) :
    FilledIn g ps t := by
  induction ht with
  | nil => exact .nil
  | text _ ih => exact .text (ih (fun n hn => h n (by simp [hn])))
  | value hv _ ih => exact .value ((h _ (by simp)).symm.trans hv) (ih (fun n hn => h n (by simp [hn])))

/-- C117. The group function `sformat(string, add_field)` stores the string with the values of the names filled in under the field: a name
stands for the variable of the record, else the template variable, else the global variable. If one of the names is none of these, the record
stays as it is; it is never rejected. -/
theorem C117_group_sformat (W : GroupFn.World) (ms : MS) (kvs : List (Str × Val)) (hk : (kvs.map Prod.fst).Nodup) (hv : Dict.WF ms.vars)
    (ps : List FPart) (hp : ∀ n, FPart.value n ∈ ps → PlainName n) (field : Str) (val : Str → Option Val)
    (hval : ∀ n, val n = (valueOf (asDict kvs) n).or ((Dict.get? ms.vars n).or (Dict.get? ms.gvars n))) :
    (∀ t, FilledIn val ps t →
      GroupFn.builtin W (fn c!"sformat" [.str (fmtSource ps), .str field]) ms (.dict (asDict kvs)) =
        .ok (ms, .dict (Dict.set (asDict kvs) (.s field) (.str t)), some true)) ∧
    ((∃ n, FPart.value n ∈ ps ∧ val n = none) →
      GroupFn.builtin W (fn c!"sformat" [.str (fmtSource ps), .str field]) ms (.dict (asDict kvs)) = .ok (ms, .dict (asDict kvs), some true)) := by
  have hcall : GroupFn.builtin W (fn c!"sformat" [.str (fmtSource ps), .str field]) ms (.dict (asDict kvs)) =
      (do
        let v ← GroupFn.sformat W.fmt ms (.dict (asDict kvs)) (.str (fmtSource ps)) (.str field)
        pure (ms, v, some true)) := rfl
  have hget := valueOf_asDict kvs
  have hkw : ∀ n, val n = Dict.get? (Dict.update (Dict.update ms.gvars ms.vars) kvs) n := by
    intro n
    rw [hval, hget, Dict.get?_update _ _ hk, Dict.get?_update _ _ hv]
  rw [hcall]
  unfold GroupFn.sformat
  simp only [MatchFn.dataStr, pure_ok, ok_bind, kwargsOf_asDict, MatchFn.asKey, Fmt.format]
  have hfv := funext hkw
  rw [hfv]
  obtain ⟨a1, a2⟩ := Fmt.format_names W.fmt [] kvs ps hp .unknown
  obtain ⟨b1, b2⟩ := Fmt.format_names W.fmt [] (Dict.update (Dict.update ms.gvars ms.vars) kvs) ps hp .unknown
  by_cases hall : ∃ n, FPart.value n ∈ ps ∧ Dict.get? kvs n = none
  · rw [a2 hall]
    refine ⟨fun t ht => ?_, fun hm => ?_⟩
    · simp only [b1 t ht, ok_bind]
    · simp only [b2 hm, ok_bind]
  · have h0 : ∀ n, FPart.value n ∈ ps → ∃ v, Dict.get? kvs n = some v := by
      intro n hn
      cases h : Dict.get? kvs n with
      | none => exact absurd ⟨n, hn, h⟩ hall
      | some v => exact ⟨v, rfl⟩
    have h1 : ∀ n, FPart.value n ∈ ps → Dict.get? (Dict.update (Dict.update ms.gvars ms.vars) kvs) n = Dict.get? kvs n := by
      intro n hn
      obtain ⟨v, hv⟩ := h0 n hn
      rw [Dict.get?_update _ _ hk, hv]; rfl
    refine ⟨fun t ht => ?_, ?_⟩
    · rw [a1 t (filled_congr _ _ ps t h1 ht)]
      rfl
    · rintro ⟨n, hn, hz⟩
      rw [h1 n hn] at hz
      exact absurd ⟨n, hn, hz⟩ hall

/-- C117. The match function `sformat(string)` puts the matched value where the string says `{0}`, any number of times, or `{}`, once; braces
of the result are written twice in the string. -/
theorem C117_match_sformat (W : MatchFn.World) (env : Env) (data : Val) (ps : List FPart) (hp : ∀ n, FPart.value n ∈ ps → n = c!"0") (t a b : Str)
    (h : FilledIn (fun _ => some data) ps t) :
    MatchFn.builtin W (fn c!"sformat" [.str (fmtSource ps)]) env data = .ok (env, .str t, .nothing) ∧
    MatchFn.builtin W (fn c!"sformat" [.str (fmtSource [.text a, .value [], .text b])]) env data = .ok (env, .str (a ++ (pyStr data ++ b)), .nothing) := by
  constructor
  · refine builtin_named W _ _ env _ (by decide) (by decide) (by decide) rfl (.str t, .nothing) ?_
    show (do let r ← Fmt.format W.fmt (fmtSource ps) [data] []; pure (Val.str r, Flag.nothing) : PyM _) = _
    rw [Fmt.format, Fmt.format_zero W.fmt [data] [] data [] rfl ps hp .unknown (by intro k h; cases h) t h]
    rfl
  · refine builtin_named W _ _ env _ (by decide) (by decide) (by decide) rfl (.str (a ++ (pyStr data ++ b)), .nothing) ?_
    show (do let r ← Fmt.format W.fmt (fmtSource [.text a, .value [], .text b]) [data] []; pure (Val.str r, Flag.nothing) : PyM _) = _
    rw [Fmt.format, Fmt.format_once W.fmt [data] [] data a b rfl]
    rfl

/-- C117, what is not caught: a second `{}` in the string of a match variable, or any `{}` in the string of a group, ends the parsing. -/
theorem C117_numbered (W : MatchFn.World) (G : GroupFn.World) (env : Env) (ms : MS) (data : Val) (kvs : List (Str × Val)) :
    MatchFn.builtin W (fn c!"sformat" [.str c!"{}{}"]) env data = .error .indexError ∧
    GroupFn.builtin G (fn c!"sformat" [.str c!"{}", .str c!"x"]) ms (.dict (asDict kvs)) = .error .indexError := by
  constructor
  · rfl
  · have hcall : GroupFn.builtin G (fn c!"sformat" [.str c!"{}", .str c!"x"]) ms (.dict (asDict kvs)) =
      (do
        let v ← GroupFn.sformat G.fmt ms (.dict (asDict kvs)) (.str c!"{}") (.str c!"x")
        pure (ms, v, some true)) := rfl
    rw [hcall]
    unfold GroupFn.sformat
    simp only [MatchFn.dataStr, pure_ok, ok_bind, kwargsOf_asDict]
    rfl

/-- `"{{vlan}} {vlan}-{site}"` -/
example : fmtSource [.text c!"{vlan} ", .value c!"vlan", .text c!"-", .value c!"site"] = c!"{{vlan}} {vlan}-{site}" ∧
    FilledIn (fun n => if n = c!"vlan" then some (.int 10) else some (.str c!"A")) [.text c!"{vlan} ", .value c!"vlan", .text c!"-", .value c!"site"]
      c!"{vlan} 10-A" ∧ PlainName c!"vlan" :=
  ⟨rfl, .text (.value (v := .int 10) rfl (.text (.value (v := .str c!"A") rfl .nil))), ⟨'v', by decide, by decide⟩, by decide⟩

end Props
