import Verif.Spec.GroupMore
import Verif.Props.Lookup
import Verif.Props.Fmt
/-!
# C146 - C148: records: lookups in results, addresses, validation
-/

namespace Props
open Py Spec TTP TTP.GroupFn

/-! ## C146 -/

theorem lookupFrom_looked (src : Val) (path : List Str) (t : Dict Key Val) (ht : MatchFn.lookupPath src path = .ok (.dict t)) (key : Str)
    (extra : Dict Str Val) (d d' : Dict Key Val) (h : Looked t key extra d d') :
    lookupFrom src path (.dict d) (.str key) ((Dict.get? extra c!"add_field").getD (.bool false)) (.bool true)
      ((Dict.get? extra c!"update").getD (.bool false)) = .ok (.dict d') := by
  unfold lookupFrom
  rw [ht, ok_bind]
  dsimp only
  show (match Dict.get? d (.s key) with | none => _ | some v => _ : PyM _) = _
  cases h with
  | absent h => unfold valueOf at h; rw [h]; rfl
  | unknown h h' =>
    unfold valueOf at h h'; rw [h]
    show (match Dict.get? t (.s _) with | none => _ | some v => _ : PyM _) = _
    rw [h']; rfl
  | replace h h' =>
    unfold valueOf at h h'; rw [h]
    show (match Dict.get? t (.s _) with | none => _ | some v => _ : PyM _) = _
    rw [h']; rfl
  | @field _ _ v f h h' hf =>
    unfold valueOf at h h'; rw [h]
    show (match Dict.get? t (.s _) with | none => _ | some v => _ : PyM _) = _
    rw [h']
    cases f with
    | nil => exact absurd rfl hf
    | cons => rfl
  | update h h' =>
    unfold valueOf at h h'; rw [h]
    show (match Dict.get? t (.s _) with | none => _ | some v => _ : PyM _) = _
    rw [h']; rfl

/-- `lookup(key, template="a.b")` and `lookup(key, group="a.b")` with further arguments -/
def recordLookup (key which : Str) (path : List Str) (extra : Dict Str Val) : FnCall :=
  ⟨c!"lookup", [.str key], (which, .str (dots path)) :: extra⟩

theorem groupLookup_call (W : World) (ms : MS) (key which : Str) (hw : which = c!"template" ∨ which = c!"group") (path : List Str) (hne : path ≠ [])
    (hp : PathNames path) (extra : Dict Str Val) (he : LookupExtra extra) (data : Val) :
    builtin W (recordLookup key which path extra) ms data = (do
      let src ← if which = c!"template" then MatchFn.tplSource W.templates path else groupSource ms W.results path
      let v ← lookupFrom src.1 src.2 data (.str key) ((Dict.get? extra c!"add_field").getD (.bool false)) (.bool true)
        ((Dict.get? extra c!"update").getD (.bool false))
      pure (ms, v, none)) := by
  have hn := lookupNames_dots path hne (fun n h => (hp n h).2)
  have htr := dots_truthy path hne (fun n h => (hp n h).1)
  have hc : builtin W (recordLookup key which path extra) ms data = callLookup W (recordLookup key which path extra) ms data := by
    unfold builtin recordLookup
    rfl
  have hb : MatchFn.bindArgs GroupFn.lookupParams (recordLookup key which path extra) = .ok [some (.str key), none,
      if which = c!"template" then some (.str (dots path)) else none, if which = c!"group" then some (.str (dots path)) else none,
      Dict.get? extra c!"add_field", none, Dict.get? extra c!"update"] := by
    rcases hw with rfl | rfl <;> rcases he with rfl | ⟨f, _, rfl⟩ | rfl <;> rfl
  rw [hc]
  unfold callLookup
  rw [hb, ok_bind]
  rcases hw with rfl | rfl
  · simp [MatchFn.req, ok_bind, htr, elsewhere, MatchFn.dataStr, hn, pure_ok]
  · simp [MatchFn.req, ok_bind, htr, elsewhere, MatchFn.dataStr, hn, pure_ok]

/-- C146. `lookup(key, template="name.a.b", ...)` of a record looks the variable up in the table `a.b` of the results (of the first input) of the first
template with that name. -/
theorem C146_template_lookup (W : World) (ms : MS) (key name : Str) (path : List Str) (hp : PathNames (name :: path)) (extra : Dict Str Val)
    (he : LookupExtra extra) (before after : List (Str × Val)) (r v : Val) (ht : W.templates = before ++ (name, r) :: after)
    (hb : ∀ t ∈ before, t.1 ≠ name) (hr : FirstResults r v) (table : Dict Key Val) (hv : under v path = some (.dict table))
    (d d' : Dict Key Val) (h : Looked table key extra d d') :
    builtin W (recordLookup key c!"template" (name :: path) extra) ms (.dict d) = .ok (ms, .dict d', none) := by
  rw [groupLookup_call W ms key _ (.inl rfl) _ (by simp) hp extra he, if_pos rfl]
  have hs : MatchFn.tplSource W.templates (name :: path) = .ok (v, path) := by
    rw [MatchFn.tplSource]
    have hf : W.templates.find? (fun t => t.1 == name) = some (name, r) := by
      rw [ht, List.find?_append, List.find?_eq_none.2 (by intro t h; simpa using hb t h)]
      simp
    rw [hf]
    rcases hr with ⟨l, rfl⟩ | ⟨rfl, hl⟩
    · rfl
    · cases r with
      | list l => exact absurd rfl (hl l)
      | _ => rfl
  rw [hs, ok_bind]
  dsimp only
  rw [lookupFrom_looked v path table (lookupPath_under _ _ _ hv) key extra d d' h]
  rfl

/-- where a lookup in a group finds it: in the results of the input that is being parsed, else in those of the first input before that has it -/
inductive GroupFound (now : Dict Key Val) (earlier : List Val) (name : Str) (v : Val) : Prop
  | now : valueOf now name = some v → GroupFound now earlier name v
  | earlier (before after : List Val) (d : Dict Key Val) : valueOf now name = none → earlier = before ++ .dict d :: after →
      (∀ r ∈ before, ∃ e, r = .dict e ∧ valueOf e name = none) → valueOf d name = some v → GroupFound now earlier name v

/-- C146. `lookup(key, group="name.a.b", ...)` of a record looks the variable up in the table `a.b` of the group: of what the same input has given so
far, else of the first input before that has results of the group. -/
theorem C146_group_lookup (W : World) (ms : MS) (key name : Str) (path : List Str) (hp : PathNames (name :: path)) (extra : Dict Str Val)
    (he : LookupExtra extra) (now : Dict Key Val) (hnow : ms.results = .dict now) (rs : List Val) (hrs : W.results = .list rs) (v : Val)
    (hg : GroupFound now rs name v) (table : Dict Key Val) (hv : under v path = some (.dict table))
    (d d' : Dict Key Val) (h : Looked table key extra d d') :
    builtin W (recordLookup key c!"group" (name :: path) extra) ms (.dict d) = .ok (ms, .dict d', none) := by
  rw [groupLookup_call W ms key _ (.inr rfl) _ (by simp) hp extra he, if_neg (by decide)]
  have hs : groupSource ms W.results (name :: path) = .ok (v, path) := by
    unfold groupSource
    dsimp only
    rw [hnow, MatchFn.grpFind]
    cases hg with
    | now hn => unfold valueOf at hn; rw [hn]; rfl
    | earlier before after e hn hl hb hd =>
      unfold valueOf at hn hb hd
      rw [hn]
      dsimp only
      rw [show MatchFn.grpFind name [] = .ok none from rfl, ok_bind]
      dsimp only
      unfold MatchFn.grpSource
      rw [hrs]
      show (do match ← MatchFn.grpFind name rs with
        | some v => pure (v, path)
        | none => pure (.dict [], path) : PyM (Val × List Str)) = _
      rw [hl, grpFind_first name before after e v hb hd]; rfl
  rw [hs, ok_bind]
  dsimp only
  rw [lookupFrom_looked v path table (lookupPath_under _ _ _ hv) key extra d d' h]
  rfl

/-- C146. Without such a template, or without results of the group, or without the table in them, the record stays as it is. -/
theorem C146_no_table (W : World) (ms : MS) (key name : Str) (path : List Str) (hp : PathNames (name :: path)) (extra : Dict Str Val)
    (he : LookupExtra extra) (d : Dict Key Val) (x : Val) (hx : valueOf d key = some x → ∃ s, x = .str s) (hk : valueOf d key = none ∨ valueOf d key = some x) :
    ((∀ t ∈ W.templates, t.1 ≠ name) → builtin W (recordLookup key c!"template" (name :: path) extra) ms (.dict d) = .ok (ms, .dict d, none)) ∧
    (∀ now rs, ms.results = .dict now → W.results = .list rs → valueOf now name = none → (∀ r ∈ rs, ∃ e, r = .dict e ∧ valueOf e name = none) →
      builtin W (recordLookup key c!"group" (name :: path) extra) ms (.dict d) = .ok (ms, .dict d, none)) ∧
    (∀ now v, ms.results = .dict now → valueOf now name = some v → Missing v path →
      builtin W (recordLookup key c!"group" (name :: path) extra) ms (.dict d) = .ok (ms, .dict d, none)) := by
  have hl : Looked [] key extra d d := by
    rcases hk with hk | hk
    · exact .absent hk
    · obtain ⟨s, rfl⟩ := hx hk
      exact .unknown hk rfl
  refine ⟨fun hb => ?_, fun now rs hnow hrs hn hb => ?_, fun now v hnow hv hm => ?_⟩
  · rw [groupLookup_call W ms key _ (.inl rfl) _ (by simp) hp extra he, if_pos rfl]
    have hs : MatchFn.tplSource W.templates (name :: path) = .ok (.dict [], name :: path) := by
      rw [MatchFn.tplSource, List.find?_eq_none.2 (by intro t h; simpa using hb t h)]
      rfl
    rw [hs, ok_bind]
    dsimp only
    rw [lookupFrom_looked _ _ [] (lookupPath_empty _) key extra d d hl]
    rfl
  · rw [groupLookup_call W ms key _ (.inr rfl) _ (by simp) hp extra he, if_neg (by decide)]
    have hs : groupSource ms W.results (name :: path) = .ok (.dict [], path) := by
      unfold groupSource
      dsimp only
      rw [hnow, MatchFn.grpFind]
      unfold valueOf at hn hb
      rw [hn]
      dsimp only
      rw [show MatchFn.grpFind name [] = .ok none from rfl, ok_bind]
      dsimp only
      unfold MatchFn.grpSource
      rw [hrs]
      show (do match ← MatchFn.grpFind name rs with
        | some v => pure (v, path)
        | none => pure (.dict [], path) : PyM (Val × List Str)) = _
      rw [grpFind_none name rs hb]; rfl
    rw [hs, ok_bind]
    dsimp only
    rw [lookupFrom_looked _ _ [] (lookupPath_empty _) key extra d d hl]
    rfl
  · rw [groupLookup_call W ms key _ (.inr rfl) _ (by simp) hp extra he, if_neg (by decide)]
    have hs : groupSource ms W.results (name :: path) = .ok (v, path) := by
      unfold groupSource
      dsimp only
      rw [hnow, MatchFn.grpFind]
      unfold valueOf at hv
      rw [hv]
      rfl
    rw [hs, ok_bind]
    dsimp only
    rw [lookupFrom_looked _ _ [] (lookupPath_missing _ _ hm) key extra d d hl]
    rfl

/-! ## C147 -/

theorem toIp_call (W : World) (ms : MS) (ip mask : Str) (d : Dict Key Val) :
    builtin W (fn c!"to_ip" [.str ip, .str mask]) ms (.dict d) = (do
      let v ← toIpFn W (.dict d) (.str ip) (.str mask)
      pure (ms, v, none)) := rfl

/-- the mask of a record: a text or a number -/
def MaskText (m : Val) (t : Str) : Prop := m = .str t ∨ ∃ n : Nat, m = .int n ∧ t = natStr n

theorem toIpFn_both (W : World) (ip mask : Str) (d : Dict Key Val) (a m : Val) (ha : valueOf d ip = some a) (hm : valueOf d mask = some m) :
    toIpFn W (.dict d) (.str ip) (.str mask) = putIp W (.dict d) (.str ip) (pyStr a ++ '/' :: pyStr m) := by
  unfold valueOf at ha hm
  have i1 : MatchFn.inData (.str ip) (.dict d) = .ok true := by
    show Except.ok (Dict.has d (.s ip)) = _
    rw [(Dict.has_iff d _).2 (by rw [← Dict.has_iff, Dict.has, ha]; rfl)]
  have i2 : MatchFn.inData (.str mask) (.dict d) = .ok true := by
    show Except.ok (Dict.has d (.s mask)) = _
    rw [Dict.has, hm]; rfl
  have g1 : getItem (.dict d) (.str ip) = .ok a := by
    show (match Dict.get? d (.s ip) with | some v => _ | none => _ : PyM _) = _
    rw [ha]; rfl
  have g2 : getItem (.dict d) (.str mask) = .ok m := by
    show (match Dict.get? d (.s mask) with | some v => _ | none => _ : PyM _) = _
    rw [hm]; rfl
  unfold toIpFn
  rw [i1, ok_bind, i2, ok_bind, Bool.and_self, if_pos rfl, g1, ok_bind, g2, ok_bind]

/-- C147. `to_ip(ip_key, mask_key)` of a record with an address and a mask (prefix length, netmask or host mask; a text or a number) replaces the
address by the object of the address with this mask, version 4 or 6, and leaves everything else. -/
theorem C147_group_to_ip (W : World) (ms : MS) (ip mask : Str) (d : Dict Key Val) (s t : Str) (m : Val)
    (ha : valueOf d ip = some (.str s)) (hm : valueOf d mask = some m) (ht : MaskText m t) :
    (∀ x p, V4 s x → V4Mask t p →
      builtin W (fn c!"to_ip" [.str ip, .str mask]) ms (.dict d) = .ok (ms, .dict (Dict.set d (.s ip) (W.ipVal (.iface 4 x p))), none)) ∧
    (∀ x p, Reads6 W.ip6 → W.ip6 s = some x → (∀ c ∈ s, c ≠ '/' ∧ c ≠ ' ') → DigitsOf t p → p ≤ 128 →
      builtin W (fn c!"to_ip" [.str ip, .str mask]) ms (.dict d) = .ok (ms, .dict (Dict.set d (.s ip) (W.ipVal (.iface 6 x p))), none)) ∧
    ((∀ B, ¬ Addresses W.ip6 ['/', ' '] (s ++ '/' :: t) B) →
      builtin W (fn c!"to_ip" [.str ip, .str mask]) ms (.dict d) = .ok (ms, .dict d, none)) := by
  have hmt : pyStr m = t := by
    rcases ht with rfl | ⟨n, rfl, rfl⟩ <;> rfl
  have key := fun e => Ip.toIp_any W.ip6 [] (s ++ '/' :: t) e (by simp) (by simp)
  rw [toIp_call, toIpFn_both W ip mask d _ m ha hm, hmt, show pyStr (.str s) = s from rfl]
  unfold putIp
  refine ⟨fun x p hs hp => ?_, fun x p hr hs hc hp hle => ?_, fun hn => ?_⟩
  · rw [(key (.iface 4 x p)).2 (.inl (.inr ⟨x, p, ⟨s, t, '/', by simp, rfl, hs, hp⟩, rfl⟩))]
    rfl
  · rw [(key (.iface 6 x p)).2 (.inr ⟨?_, .inr ⟨x, p, ⟨s, t, '/', by simp, rfl, ?_, hs, hp, hle⟩, rfl⟩⟩)]
    · rfl
    · rintro e (⟨y, hy, _⟩ | ⟨y, q, ⟨a, b, c, hc', he, hv, hmask⟩, _⟩)
      · have := Ip.V4_chars _ _ hy '/' (by simp)
        revert this; decide
      · have hsa : s = a := by
          have hav : ∀ c ∈ a, c ≠ '/' ∧ c ≠ ' ' := by
            intro c hc
            have := Ip.V4_chars _ _ hv c hc
            constructor <;> (rintro rfl; revert this; decide)
          have h1 : s = (s ++ '/' :: t).takeWhile (fun c => decide (c ≠ '/' ∧ c ≠ ' ')) := by
            rw [List.takeWhile_append_of_pos (by intro c h; simpa using hc c h), List.takeWhile_cons_of_neg (by simp), List.append_nil]
          have h2 : a = (a ++ c :: b).takeWhile (fun c => decide (c ≠ '/' ∧ c ≠ ' ')) := by
            rw [List.takeWhile_append_of_pos (by intro c h; simpa using hav c h), List.takeWhile_cons_of_neg, List.append_nil]
            simp only [List.mem_cons, List.not_mem_nil, or_false] at hc'
            rcases hc' with rfl | rfl <;> simp
          rw [h1, he, ← h2]
        subst hsa
        rw [hr.not4 _ _ hv] at hs; cases hs
    · intro e he hmem
      have := hc e hmem
      simp at he; rcases he with rfl | rfl
      · exact this.1 rfl
      · exact this.2 rfl
  · rw [Ip.toIp_none W.ip6 _ (fun ⟨B, h⟩ => hn B h)]
    rfl

/-- C147. A record without the address or without the mask stays as it is. -/
theorem C147_missing (W : World) (ms : MS) (ip mask : Str) (d : Dict Key Val) (h : valueOf d ip = none ∨ valueOf d mask = none) :
    builtin W (fn c!"to_ip" [.str ip, .str mask]) ms (.dict d) = .ok (ms, .dict d, none) := by
  rw [toIp_call]
  unfold toIpFn valueOf at *
  show (if (Dict.has d (.s ip) && Dict.has d (.s mask)) = true then _ else _ : PyM _) >>= _ = _
  rw [if_neg]
  · rfl
  · rcases h with h | h <;> simp [Dict.has, h]

/-! ## C148 -/

/-- the schema of the template variable: it is there, and not empty -/
def SchemaIs (ms : MS) (name : Str) (sc : Val) : Prop := Dict.get? ms.vars name = some sc ∧ sc.truthy = true

theorem schemaOf_is {ms : MS} {name : Str} {sc : Val} (h : SchemaIs ms name sc) : schemaOf ms.vars name = some sc := by
  unfold schemaOf; rw [h.1]; dsimp only; rw [if_pos h.2]

theorem schemaOf_none {ms : MS} {name : Str} (h : ∀ sc, ¬ SchemaIs ms name sc) : schemaOf ms.vars name = none := by
  unfold schemaOf
  cases hg : Dict.get? ms.vars name with
  | none => rfl
  | some v =>
    dsimp only
    rw [if_neg (fun ht => h v ⟨hg, ht⟩)]

/-- C148. `cerberus("schema", allow_unknown=..., add_errors=...)` runs the validator with the schema of that template variable on the record: a valid
record is kept as it is; one that is not valid is dropped, or, with `add_errors=True`, kept with the errors as `validation_errors`. An exception of
the validator is raised. -/
theorem C148_cerberus (W : World) (ms : MS) (name : Str) (sc : Val) (hsc : SchemaIs ms name sc) (d : Dict Key Val) (allow add : Option Bool) :
    let call : FnCall := ⟨c!"cerberus", [.str name], (allow.toList.map (fun b => (c!"allow_unknown", Val.bool b))) ++ add.toList.map (fun b => (c!"add_errors", Val.bool b))⟩
    (∀ errs, W.validator sc (.bool (allow.getD true)) (.dict d) = .ok (true, errs) →
      builtin W call ms (.dict d) = .ok (ms, .dict d, some true)) ∧
    (∀ errs, W.validator sc (.bool (allow.getD true)) (.dict d) = .ok (false, errs) →
      (add ≠ some true → builtin W call ms (.dict d) = .ok (ms, .dict d, some false)) ∧
      (add = some true → builtin W call ms (.dict d) = .ok (ms, .dict (Dict.set d (.s c!"validation_errors") errs), none))) ∧
    (∀ e, W.validator sc (.bool (allow.getD true)) (.dict d) = .error e → builtin W call ms (.dict d) = .error e) := by
  intro call
  have hcall : builtin W call ms (.dict d) = (do
      let r ← cerberus W ms (.dict d) name (.bool (allow.getD true)) (.bool (add.getD false))
      pure (ms, r.1, r.2)) := by
    rcases allow with _ | _ | _ <;> rcases add with _ | _ | _ <;> rfl
  rw [hcall]
  unfold cerberus
  rw [schemaOf_is hsc]
  dsimp only
  unfold cerberusRun
  refine ⟨fun errs h => ?_, fun errs h => ⟨fun ha => ?_, fun ha => ?_⟩, fun e h => ?_⟩
  · rw [h]; rfl
  · rw [h, ok_bind]
    rcases add with _ | _ | _
    · rfl
    · rfl
    · exact absurd rfl ha
  · rw [h, ok_bind, ha]; rfl
  · rw [h]; rfl

/-- C148. Without such a variable, or if it is empty, `cerberus` and `validate` keep every record as it is. -/
theorem C148_no_schema (W : World) (ms : MS) (name : Str) (hsc : ∀ sc, ¬ SchemaIs ms name sc) (d : Dict Key Val) :
    builtin W (fn c!"cerberus" [.str name]) ms (.dict d) = .ok (ms, .dict d, none) ∧
    builtin W (fn c!"validate" [.str name]) ms (.dict d) = .ok (ms, .dict d, none) := by
  constructor
  · have : builtin W (fn c!"cerberus" [.str name]) ms (.dict d) = (do
      let r ← cerberus W ms (.dict d) name (.bool true) (.bool false)
      pure (ms, r.1, r.2)) := rfl
    rw [this]
    unfold cerberus
    rw [schemaOf_none hsc]
    rfl
  · have : builtin W (fn c!"validate" [.str name]) ms (.dict d) = (do
      let r ← validate W ms (.dict d) name (.str c!"valid") (.str []) (.str []) (.bool true)
      pure (ms, r, none)) := rfl
    rw [this]
    unfold validate
    rw [schemaOf_none hsc]
    rfl

theorem asDict_set (kvs : List (Str × Val)) (k : Str) (v : Val) : asDict (Dict.set kvs k v) = Dict.set (asDict kvs) (.s k) v := by
  induction kvs with
  | nil => rfl
  | cons kv kvs ih =>
    have e : asDict (kv :: kvs) = (.s kv.1, kv.2) :: asDict kvs := rfl
    rw [e, Dict.set, Dict.set]
    by_cases h : kv.1 = k
    · rw [if_pos h, if_pos (by rw [h])]; rfl
    · rw [if_neg h, if_neg (fun e => h (by injection e)), ← ih]; rfl

/-- The record with the information: nothing if there is none, or if one of the names in it is not known; else the text with the values filled
in, as `info`. -/
inductive WithInfo (val : Str → Option Val) : List FPart → Dict Key Val → Dict Key Val → Prop
  | none {d} : WithInfo val [] d d
  | filled {ps t d} : fmtSource ps ≠ [] → FilledIn val ps t → WithInfo val ps d (Dict.set d (.s c!"info") (.str t))
  | unknown {ps n d} : FPart.value n ∈ ps → val n = Option.none → WithInfo val ps d d

/-- the record with the errors, if a field for them is given -/
def withErrors (field : Str) (errs : Val) (d : Dict Key Val) : Dict Key Val := if field = [] then d else Dict.set d (.s field) errs

/-- C148. `validate("schema", result, info, errors)` keeps every record and stores the verdict of the validator in the field `result`, the text `info`
with the values of the names filled in - the verdict itself can be one of them - in the field `info`, and the errors in the field `errors`. -/
theorem C148_validate (W : World) (ms : MS) (name : Str) (sc : Val) (hsc : SchemaIs ms name sc) (kvs : List (Str × Val))
    (hk : (kvs.map Prod.fst).Nodup) (hv : Dict.WF ms.vars) (b : Bool) (errs : Val)
    (hb : W.validator sc (.bool true) (.dict (asDict kvs)) = .ok (b, errs)) (result field : Str) (ps : List FPart)
    (hp : ∀ n, FPart.value n ∈ ps → PlainName n) (val : Str → Option Val)
    (hval : ∀ n, val n = if n = result then some (.bool b) else (valueOf (asDict kvs) n).or ((Dict.get? ms.vars n).or (Dict.get? ms.gvars n)))
    (d2 : Dict Key Val) (h2 : WithInfo val ps (Dict.set (asDict kvs) (.s result) (.bool b)) d2) :
    builtin W (fn c!"validate" [.str name, .str result, .str (fmtSource ps), .str field]) ms (.dict (asDict kvs)) =
      .ok (ms, .dict (withErrors field errs d2), none) := by
  have hcall : builtin W (fn c!"validate" [.str name, .str result, .str (fmtSource ps), .str field]) ms (.dict (asDict kvs)) = (do
      let r ← validate W ms (.dict (asDict kvs)) name (.str result) (.str (fmtSource ps)) (.str field) (.bool true)
      pure (ms, r, none)) := rfl
  have hs : ∀ f, builtin W (fn c!"sformat" [.str (fmtSource ps), .str f]) ms (.dict (asDict (Dict.set kvs result (.bool b)))) =
      (do
        let v ← GroupFn.sformat W.fmt ms (.dict (asDict (Dict.set kvs result (.bool b)))) (.str (fmtSource ps)) (.str f)
        pure (ms, v, some true)) := fun f => rfl
  have hsf := C117_group_sformat W ms (Dict.set kvs result (.bool b)) (Dict.WF_set _ _ _ hk) hv ps hp c!"info" val (by
    intro n
    rw [hval, asDict_set]
    unfold valueOf
    by_cases hn : n = result
    · subst hn; rw [if_pos rfl, Dict.get?_set_self]; rfl
    · rw [if_neg hn, Dict.get?_set_ne _ _ (fun e => hn (by injection e with e; exact e.symm))])
  rw [hs] at hsf
  rw [asDict_set] at hsf
  rw [hcall]
  unfold validate
  rw [schemaOf_is hsc]
  dsimp only
  unfold validateRun
  rw [hb, ok_bind]
  have hset : setItem (.dict (asDict kvs)) (.str result) (.bool (b, errs).1) = .ok (.dict (Dict.set (asDict kvs) (.s result) (.bool b))) := rfl
  rw [hset, ok_bind]
  have hinfo : addInfo W ms (.dict (Dict.set (asDict kvs) (.s result) (.bool b))) (.str (fmtSource ps)) = .ok (.dict d2) := by
    unfold addInfo
    cases h2 with
    | none => rfl
    | @filled _ t _ hne hf =>
      have := hsf.1 t hf
      obtain ⟨v, h1, h3⟩ := (bind_ok_iff _ _ _).1 this
      cases h3
      rw [if_pos, h1]
      cases h : fmtSource ps with
      | nil => exact absurd h hne
      | cons => rfl
    | @unknown _ n _ hn hz =>
      have := hsf.2 ⟨n, hn, hz⟩
      obtain ⟨v, h1, h3⟩ := (bind_ok_iff _ _ _).1 this
      cases h3
      split
      · exact h1
      · rfl
  rw [hinfo, ok_bind]
  unfold addErrs withErrors
  cases field with
  | nil => rfl
  | cons c cs => rfl

/-! ## Examples -/

namespace Ex

/-- a validator: the schema names a variable that has to be there -/
def gworld : World where
  macros := []
  lookups := .dict []
  floats := ⟨fun _ => none, fun _ => none⟩
  toInt := false
  other := fun _ => none
  fmt := fun _ _ _ => throw .valueError
  templates := [(c!"arp", .list [.dict [(.s c!"entries", .dict [(.s c!"10.0.0.1", .str c!"aa:bb")])]])]
  results := .list [.dict [], .dict [(.s c!"macs", .dict [(.s c!"aa:bb", .dict [(.s c!"port", .str c!"Eth1")])])]]
  ip6 := fun _ => none
  ipVal := fun _ => .str c!"object"
  validator := fun sc _ d => match sc, d with
    | .str k, .dict d => pure (Dict.has d (.s k), .str c!"missing")
    | _, _ => throw .typeError

/-- a state with a schema, a variable and some results -/
def gms : MS :=
  { results := .dict [(.s c!"vlans", .dict [(.s c!"10", .str c!"users")])], started := [], ended := [], record := Record.empty,
    dynCache := [], vars := [(c!"need", .str c!"ip"), (c!"site", .str c!"A")], gvars := [] }

end Ex

example : builtin Ex.gworld (recordLookup c!"ip" c!"template" [c!"arp", c!"entries"] []) Ex.gms (.dict [(.s c!"ip", .str c!"10.0.0.1")]) =
    .ok (Ex.gms, .dict [(.s c!"ip", .str c!"aa:bb")], none) :=
  C146_template_lookup Ex.gworld Ex.gms c!"ip" c!"arp" [c!"entries"] (by unfold PathNames; decide) [] (.inl rfl) [] [] _ _ rfl (by simp) (Or.inl ⟨[], rfl⟩)
    [(.s c!"10.0.0.1", .str c!"aa:bb")] rfl _ _ (.replace (x := c!"10.0.0.1") rfl rfl)

/-- from the same input -/
example : builtin Ex.gworld (recordLookup c!"vid" c!"group" [c!"vlans"] [(c!"add_field", .str c!"name")]) Ex.gms (.dict [(.s c!"vid", .str c!"10")]) =
    .ok (Ex.gms, .dict [(.s c!"vid", .str c!"10"), (.s c!"name", .str c!"users")], none) :=
  C146_group_lookup Ex.gworld Ex.gms c!"vid" c!"vlans" [] (by unfold PathNames; decide) _ (.inr (.inl ⟨_, by decide, rfl⟩)) _ rfl _ rfl _ (.now rfl)
    [(.s c!"10", .str c!"users")] rfl _ _ (.field (x := c!"10") rfl rfl (by decide))

/-- from an earlier one -/
example : builtin Ex.gworld (recordLookup c!"mac" c!"group" [c!"macs"] [(c!"update", .bool true)]) Ex.gms (.dict [(.s c!"mac", .str c!"aa:bb")]) =
    .ok (Ex.gms, .dict [(.s c!"mac", .str c!"aa:bb"), (.s c!"port", .str c!"Eth1")], none) :=
  C146_group_lookup Ex.gworld Ex.gms c!"mac" c!"macs" [] (by unfold PathNames; decide) _ (.inr (.inr rfl)) _ rfl _ rfl _
    (.earlier [.dict []] [] _ rfl rfl (by intro r hr; simp at hr; subst hr; exact ⟨[], rfl, rfl⟩) rfl)
    [(.s c!"aa:bb", .dict [(.s c!"port", .str c!"Eth1")])] rfl _ _ (.update (x := c!"aa:bb") (fs := [(.s c!"port", .str c!"Eth1")]) rfl rfl)

example : builtin Ex.gworld (fn c!"to_ip" [.str c!"ip", .str c!"mask"]) Ex.gms (.dict [(.s c!"ip", .str c!"10.0.0.1"), (.s c!"mask", .int 24)]) =
    .ok (Ex.gms, .dict [(.s c!"ip", .str c!"object"), (.s c!"mask", .int 24)], none) :=
  (C147_group_to_ip Ex.gworld Ex.gms c!"ip" c!"mask" _ c!"10.0.0.1" c!"24" (.int 24) rfl rfl (.inr ⟨24, rfl, by decide⟩)).1 _ 24 V4_10
    ⟨by decide, .inl ⟨by simp, rfl, rfl⟩⟩

example : SchemaIs Ex.gms c!"need" (.str c!"ip") ∧
    builtin Ex.gworld ⟨c!"cerberus", [.str c!"need"], []⟩ Ex.gms (.dict [(.s c!"mask", .int 24)]) = .ok (Ex.gms, .dict [(.s c!"mask", .int 24)], some false) :=
  ⟨⟨rfl, rfl⟩, ((C148_cerberus Ex.gworld Ex.gms c!"need" (.str c!"ip") ⟨rfl, rfl⟩ [(.s c!"mask", .int 24)] none none).2.1 _ rfl).1 (by simp)⟩

example : builtin Ex.gworld (fn c!"validate" [.str c!"need", .str c!"ok", .str c!"{site}: {ok}", .str c!"why"]) Ex.gms (.dict [(.s c!"mask", .int 24)]) =
    .ok (Ex.gms, .dict [(.s c!"mask", .int 24), (.s c!"ok", .bool false), (.s c!"info", .str c!"A: False"), (.s c!"why", .str c!"missing")], none) :=
  C148_validate Ex.gworld Ex.gms c!"need" (.str c!"ip") ⟨rfl, rfl⟩ [(c!"mask", .int 24)] (by decide) (by unfold Dict.WF; decide) false _ rfl c!"ok" c!"why"
    [.value c!"site", .text c!": ", .value c!"ok"]
    (by intro n hn; simp at hn; rcases hn with rfl | rfl
        · exact ⟨⟨'s', by decide, by decide⟩, by decide⟩
        · exact ⟨⟨'o', by decide, by decide⟩, by decide⟩)
    _ (fun n => rfl) _ (.filled (by decide) (.value (v := .str c!"A") rfl (.text (.value (v := .bool false) rfl .nil))))

end Props
