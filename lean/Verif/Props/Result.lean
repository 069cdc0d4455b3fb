import Verif.Spec.Result
import Verif.Props.Outputs
import Verif.Props.XmlText
/-!
# C155, C156: `result` with an output of its own, `quick_parse`
-/

set_option synthInstance.maxSize 4000

namespace Props
open Py Spec TTP TTP.OutFn

theorem kwAttrs_eq (kw : Dict Str Val) (hw : Dict.WF kw) : kwAttrs kw = overlay outDefaults kw := by
  unfold kwAttrs
  have hs : Dict.WF (Dict.setdefault kw c!"returner" (Val.str c!"self")) := Dict.WF_setdefault _ _ _ hw
  show Dict.update outDefaults _ = _
  rw [update_overlay _ _ outDefaults_WF hs]
  cases hg : Dict.get? kw c!"returner" with
  | some v =>
    have : Dict.setdefault kw c!"returner" (Val.str c!"self") = kw := by
      unfold Dict.setdefault Dict.has
      rw [hg]; rfl
    rw [this]
  | none =>
    have : Dict.setdefault kw c!"returner" (Val.str c!"self") = kw ++ [(c!"returner", .str c!"self")] := by
      unfold Dict.setdefault Dict.has
      rw [hg]
      exact Dict.set_of_not_mem _ _ _ ((Dict.get?_eq_none_iff _ _).1 hg)
    rw [this]
    unfold overlay
    congr 1
    · apply List.map_congr_left
      intro kv hkv
      have : Dict.get? (kw ++ [(c!"returner", Val.str c!"self")]) kv.1 = (Dict.get? kw kv.1).or (if c!"returner" = kv.1 then some (.str c!"self") else none) := by
        clear hkv hg hs this hw
        induction kw with
        | nil => simp [Dict.get?_cons]
        | cons q kw ih =>
          rw [List.cons_append, Dict.get?_cons, Dict.get?_cons, ih]
          split <;> simp
      rw [this]
      simp only [outDefaults, List.mem_cons, List.not_mem_nil, or_false] at hkv
      rcases hkv with rfl | rfl | rfl
      · simp [hg]
      · simp
      · simp
    · rw [List.filter_append]
      simp [outDefaults, Dict.keys]

theorem kwTag_iff (C : TplCtx) (W : OutWorld) (kw : Dict Str Val) (hw : Dict.WF kw) (hlow : ∀ n ∈ Dict.keys kw, lower n ∈ outOptions → lower n = n)
    (t : OutTag) (h : kwTag C W kw = .ok t) : OutputWith C W kw t := by
  unfold kwTag at h
  rw [kwAttrs_eq kw hw] at h
  obtain ⟨o, h1, h⟩ := (bind_ok_iff _ _ _).1 h
  obtain ⟨a, h2, h⟩ := (bind_ok_iff _ _ _).1 h
  simp only [pure_ok, Except.ok.injEq] at h
  subst h
  have hW := overlay_WF outDefaults kw outDefaults_WF hw
  have hl : ∀ n ∈ Dict.keys (overlay outDefaults kw), lower n ∈ outOptions → lower n = n := by
    intro n hn
    rw [← Dict.has_iff, Dict.has, overlay_get _ _ outDefaults_WF hw] at hn
    cases hg : Dict.get? kw n with
    | some v =>
      exact hlow n (by rw [← Dict.has_iff, Dict.has, hg]; rfl)
    | none =>
      rw [hg] at hn
      have : n ∈ Dict.keys outDefaults := by rw [← Dict.has_iff]; exact hn
      simp only [outDefaults, Dict.keys, List.map_cons, List.map_nil, List.mem_cons, List.not_mem_nil, or_false] at this
      rcases this with rfl | rfl | rfl <;> decide
  obtain ⟨r1, r2⟩ := tagAttrs_get C W _ _ a hW hl (fun _ _ e => e) h2
  exact ⟨(outAttrs_iff C _ hW hl _ _).1 h1, fun n hn => by rw [r1 n hn, hn], r2, rfl⟩

theorem runAlone_iff (E : Engine) (W : OutWorld) (t t' : OutTag) (data v : Val) (es : List Eff) (ht : t.out.condition = none ∨ t.out.condition = some []) :
    runAlone E W t data = .ok (v, t', es) ↔ OneTag E W [] t data v t' es := by
  rw [← runTag_iff E W [] (fun n v h => by cases h) t t' data v es (by rcases ht with h | h <;> rw [h]; exact .inl rfl; exact .inr (.inl rfl))]
  unfold runAlone
  rcases ht with h | h <;> rw [h]

theorem effects_flag (W : OutWorld) (t : OutTag) (b : Bool) (v : Val) (rs : List Str) (es : List Eff) :
    Effects W { t with out := { t.out with selfFlag := b } } v rs es ↔ Effects W t v rs es := by
  constructor
  · intro h
    induction h with
    | nil => exact .nil
    | file h _ ih => exact .file h ih
    | terminal h _ ih => exact .terminal h ih
    | syslog h _ ih => exact .syslog h ih
    | other h _ ih => exact .other h ih
  · intro h
    induction h with
    | nil => exact .nil
    | file h _ ih => exact .file h ih
    | terminal h _ ih => exact .terminal h ih
    | syslog h _ ih => exact .syslog h ih
    | other h _ ih => exact .other h ih

theorem engine_flag (E : Engine) (W : OutWorld) (t : OutTag) (b : Bool) :
    engineOf E W { t with out := { t.out with selfFlag := b } } = engineOf E W t := rfl

theorem runEach_iff (E : Engine) (W : OutWorld) (M : Tpl → Dict Str (Val → PyM Val)) (t : OutTag) (hc : t.out.condition = none ∨ t.out.condition = some [])
    (b : Bool) (hb : b = true → c!"self" ∈ t.out.returners) (data : List Tpl) : ∀ (vs : List Val) (es : List Eff),
    runEach E W M { t with out := { t.out with selfFlag := b } } data = .ok (vs, es) ↔
      ∃ ess, es = ess.flatten ∧ All2 (fun d q => OutputGives E { W with macros := M d } t d.results q.1 q.2) data (vs.zip ess) ∧ vs.length = ess.length := by
  induction data generalizing b with
  | nil =>
    intro vs es
    simp only [runEach, pure_ok, Except.ok.injEq, Prod.mk.injEq]
    constructor
    · rintro ⟨rfl, rfl⟩; exact ⟨[], rfl, .nil, rfl⟩
    · rintro ⟨ess, rfl, h, hl⟩
      cases vs with
      | nil => cases ess with
        | nil => exact ⟨rfl, rfl⟩
        | cons _ _ => simp at hl
      | cons v vs => cases ess with
        | nil => simp at hl
        | cons _ _ => cases h
  | cons d data ih =>
    intro vs es
    have hone : ∀ v t' es, runAlone E { W with macros := M d } { t with out := { t.out with selfFlag := b } } d.results = .ok (v, t', es) ↔
        OutputGives E { W with macros := M d } t d.results v es ∧ t' = { t with out := { t.out with selfFlag := decide (c!"self" ∈ t.out.returners) } } := by
      intro v t' es
      rw [runAlone_iff E { W with macros := M d } { t with out := { t.out with selfFlag := b } } t' d.results v es hc]
      have hor : (b || decide (c!"self" ∈ t.out.returners)) = decide (c!"self" ∈ t.out.returners) := by
        cases b with
        | false => rfl
        | true => simp [hb rfl]
      have hmet : CondMet [] t.out.condition := by
        rcases hc with h | h <;> rw [h]
        · exact .inl rfl
        · exact .inr (.inl rfl)
      constructor
      · intro h
        cases h with
        | skip h => exact absurd hmet h
        | run h0 h1 h2 h3 =>
          rw [engine_flag] at h1 h2
          refine ⟨⟨_, _, h1, h2, (effects_flag { W with macros := M d } t b _ _ _).1 h3, ?_⟩, ?_⟩
          · show (if (b || decide (c!"self" ∈ t.out.returners)) = true then _ else _) = _
            rw [hor]
            simp only [decide_eq_true_eq]
          · show OutTag.mk _ _ _ = _
            simp only [hor]
      · rintro ⟨⟨r1, r2, h1, h2, h3, rfl⟩, rfl⟩
        have := OneTag.run (E := E) (W := { W with macros := M d }) (vars := []) (t := { t with out := { t.out with selfFlag := b } }) (data := d.results) (r1 := r1) (r2 := r2)
          (es := es) hmet h1 h2 ((effects_flag { W with macros := M d } t b _ _ _).2 h3)
        simp only [hor, decide_eq_true_eq] at this
        exact this
    rw [runEach]
    simp only [bind_ok_iff]
    constructor
    · rintro ⟨⟨w, t', es1⟩, h1, ⟨ws, fs⟩, h2, h3⟩
      simp only [pure_ok, Except.ok.injEq, Prod.mk.injEq] at h3
      obtain ⟨rfl, rfl⟩ := h3
      obtain ⟨g1, rfl⟩ := (hone _ _ _).1 h1
      obtain ⟨ess, rfl, h4, h5⟩ := (ih _ (by simp) ws fs).1 h2
      exact ⟨es1 :: ess, rfl, .cons g1 h4, by simp [h5]⟩
    · rintro ⟨ess, rfl, h1, h2⟩
      cases vs with
      | nil => cases ess with
        | nil => cases h1
        | cons _ _ => simp at h2
      | cons v vs => cases ess with
        | nil => simp at h2
        | cons es1 ess =>
          cases h1 with
          | cons g1 g2 =>
            exact ⟨(v, _, es1), (hone _ _ _).2 ⟨g1, rfl⟩, (vs, ess.flatten),
              (ih _ (by simp) vs _).2 ⟨ess, rfl, g2, by simpa using h2⟩, rfl⟩

theorem pick_asked (o : TTPObj) (names : List Str) : pick o names = Asked o names := by
  unfold pick Asked
  split
  · rename_i h; subst h
    exact (List.filter_eq_self.2 (by simp)).symm
  · rename_i h; simp [h]

theorem flatItems_eq (v : Val) : flatItems v = match v with
    | .list xs => xs.flatMap unpack
    | v => [v] := by
  have inner : ∀ (xs : List Val) (acc : List Val),
      xs.foldl (fun ret item => match item with
        | .list ys => ret ++ ys
        | v => ret ++ [v]) acc = acc ++ xs.flatMap unpack := by
    intro xs
    induction xs with
    | nil => simp
    | cons x xs ih => intro acc; rw [List.foldl_cons, ih]; cases x <;> simp [unpack]
  cases v with
  | list xs => exact (inner xs []).trans (List.nil_append _)
  | _ => rfl

/-- the results of the templates through the output, one after the other -/
theorem reported_iff (C : TplCtx) (W : OutWorld) (M : Tpl → Dict Str (Val → PyM Val)) (t : OutTag) (hn : t.out.selfFlag = false) (hc : t.out.condition = none ∨ t.out.condition = some [])
    (data : List Tpl) (vs : List Val) (es : List Eff) :
    reported C.eng W M (some t) data = .ok (vs, es) ↔
      ∃ ess, es = ess.flatten ∧ All2 (fun d q => OutputGives C.eng { W with macros := M d } t d.results q.1 q.2) data (vs.zip ess) ∧ vs.length = ess.length := by
  have := runEach_iff C.eng W M t hc false (by simp) data vs es
  have e : ({ t with out := { t.out with selfFlag := false } } : OutTag) = t := by
    obtain ⟨⟨_, _, _, _, _, _⟩, _, _⟩ := t
    simp only at hn
    subst hn
    rfl
  rw [e] at this
  exact this

theorem all2_left {α β γ : Type} (R : β → γ → Prop) (f : α → β) (l : List α) (m : List γ) : All2 R (l.map f) m ↔ All2 (fun a c => R (f a) c) l m := by
  induction l generalizing m with
  | nil => constructor <;> (intro h; cases h; exact .nil)
  | cons a l ih =>
    constructor
    · intro h
      cases h with
      | cons h1 h2 => exact .cons h1 ((ih _).1 h2)
    · intro h
      cases h with
      | cons h1 h2 => exact .cons h1 ((ih _).2 h2)

/-! ## C155 -/

section
variable (C : TplCtx) (W : OutWorld) (M : Tpl → Dict Str (Val → PyM Val)) (o : TTPObj) (names : List Str) (kw : Dict Str Val) (hk : kw ≠ []) (hw : Dict.WF kw)
  (hlow : ∀ n ∈ Dict.keys kw, lower n ∈ outOptions → lower n = n) (hcond : c!"condition" ∉ Dict.keys kw)
include hk hw hlow hcond

theorem resultTag_of (t : Option OutTag) (h : resultTag C W kw = .ok t) : ∃ t', t = some t' ∧ OutputWith C W kw t' ∧
    t'.out.selfFlag = false ∧ t'.out.condition = none := by
  unfold resultTag at h
  cases kw with
  | nil => exact absurd rfl hk
  | cons q kw =>
    obtain ⟨t', h1, h⟩ := (bind_ok_iff _ _ _).1 h
    simp only [pure_ok, Except.ok.injEq] at h
    subst h
    have h2 := kwTag_iff C W _ hw hlow t' h1
    refine ⟨t', rfl, h2, h2.out.flag, ?_⟩
    have hg : Dict.get? (overlay outDefaults (q :: kw)) c!"condition" = none := by
      rw [overlay_get _ _ outDefaults_WF hw, (Dict.get?_eq_none_iff _ _).2 hcond]
      decide
    have := h2.out.condition
    unfold Option' at this
    rw [hg] at this
    exact this

/-- C155. `result(format=..., ...)` with structure `list`: an output with these attributes is made, and the answer has for each template asked
for, in loading order, what this output makes of its results; what happens outside is what the returners do with them, in this order. -/
theorem C155_list (shape : Str) (hs : lower shape = c!"list") (v : Val) (es : List Eff) (h : resultCall C W M o names shape kw = .ok (v, es)) :
    ∃ t vs ess, OutputWith C W kw t ∧ v = .list vs ∧ es = ess.flatten ∧ vs.length = ess.length ∧
      All2 (fun tpl q => OutputGives C.eng { W with macros := M tpl } t tpl.results q.1 q.2) (Asked o names) (vs.zip ess) := by
  unfold resultCall at h
  obtain ⟨t, h1, h⟩ := (bind_ok_iff _ _ _).1 h
  obtain ⟨t, rfl, h2, h3, h4⟩ := resultTag_of C W kw hk hw hlow hcond t h1
  rw [if_pos hs] at h
  obtain ⟨⟨vs, es'⟩, h5, h⟩ := (bind_ok_iff _ _ _).1 h
  simp only [pure_ok, Except.ok.injEq, Prod.mk.injEq] at h
  obtain ⟨rfl, rfl⟩ := h
  obtain ⟨ess, e, h6, h7⟩ := (reported_iff C W M t h3 (.inl h4) _ _ _).1 h5
  refine ⟨t, vs, ess, h2, rfl, e, h7, ?_⟩
  rw [← pick_asked]
  exact h6

/-- C155. Structure `flat_list`: the same, with the lists put together: an answer that is a list is unpacked, and lists in it once more. -/
theorem C155_flat_list (shape : Str) (hs : lower shape = c!"flat_list") (v : Val) (es : List Eff) (h : resultCall C W M o names shape kw = .ok (v, es)) :
    ∃ (t : OutTag) (vs : List Val) (ess : List (List Eff)), OutputWith C W kw t ∧ v = .list (vs.flatMap (fun r => match r with
        | .list xs => xs.flatMap unpack
        | v => [v])) ∧ es = ess.flatten ∧ vs.length = ess.length ∧
      All2 (fun tpl q => OutputGives C.eng { W with macros := M tpl } t tpl.results q.1 q.2) (Asked o names) (vs.zip ess) := by
  unfold resultCall at h
  obtain ⟨t, h1, h⟩ := (bind_ok_iff _ _ _).1 h
  obtain ⟨t, rfl, h2, h3, h4⟩ := resultTag_of C W kw hk hw hlow hcond t h1
  rw [hs, if_neg (by decide), if_neg (by decide), if_pos rfl] at h
  obtain ⟨⟨vs, es'⟩, h5, h⟩ := (bind_ok_iff _ _ _).1 h
  simp only [pure_ok, Except.ok.injEq, Prod.mk.injEq] at h
  obtain ⟨rfl, rfl⟩ := h
  obtain ⟨ess, e, h6, h7⟩ := (reported_iff C W M t h3 (.inl h4) _ _ _).1 h5
  refine ⟨t, vs, ess, h2, ?_, e, h7, ?_⟩
  · have : ∀ (vs acc : List Val), vs.foldl (fun ret v => ret ++ flatItems v) acc = acc ++ vs.flatMap flatItems := by
      intro vs
      induction vs with
      | nil => simp
      | cons x xs ih => intro acc; rw [List.foldl_cons, ih]; simp
    rw [this, List.nil_append]
    congr 1
    congr 1
    funext a
    rw [flatItems_eq]
  · rw [← pick_asked]
    exact h6

/-- C155. Structure `dictionary`: only templates with a name are taken; each name has what the output makes of the results of the last template
of that name. -/
theorem C155_dictionary (shape : Str) (hs : lower shape = c!"dictionary") (v : Val) (es : List Eff) (h : resultCall C W M o names shape kw = .ok (v, es)) :
    ∃ t vs ess d, OutputWith C W kw t ∧ v = .dict d ∧ es = ess.flatten ∧ vs.length = ess.length ∧
      All2 (fun tpl q => OutputGives C.eng { W with macros := M tpl } t tpl.results q.1 q.2)
        ((Asked o names).filter (fun t => decide (t.name ≠ []))) (vs.zip ess) ∧
      Dict.WF d ∧ ∀ k, Dict.get? d k =
        ((((Asked o names).filter (fun t => decide (t.name ≠ []))).zip vs).reverse.find? (fun q => decide (Key.s q.1.name = k))).map (·.2) := by
  unfold resultCall at h
  obtain ⟨t, h1, h⟩ := (bind_ok_iff _ _ _).1 h
  obtain ⟨t, rfl, h2, h3, h4⟩ := resultTag_of C W kw hk hw hlow hcond t h1
  rw [hs, if_neg (by decide), if_pos rfl] at h
  obtain ⟨⟨vs, es'⟩, h5, h⟩ := (bind_ok_iff _ _ _).1 h
  simp only [pure_ok, Except.ok.injEq, Prod.mk.injEq] at h
  obtain ⟨rfl, rfl⟩ := h
  obtain ⟨ess, e, h6, h7⟩ := (reported_iff C W M t h3 (.inl h4) _ _ _).1 h5
  rw [pick_asked] at h6
  have key : ∀ (l : List (Tpl × Val)) (acc : Dict Key Val), Dict.WF acc →
      Dict.WF (l.foldl (fun d q => Dict.set d (.s q.1.name) q.2) acc) ∧
      ∀ k, Dict.get? (l.foldl (fun d q => Dict.set d (.s q.1.name) q.2) acc) k =
        ((l.reverse.find? (fun q => decide (Key.s q.1.name = k))).map (·.2)).or (Dict.get? acc k) := by
    intro l
    induction l with
    | nil => intro acc ha; exact ⟨ha, fun k => by simp⟩
    | cons q l ih =>
      intro acc ha
      obtain ⟨i1, i2⟩ := ih (Dict.set acc (.s q.1.name) q.2) (Dict.WF_set _ _ _ ha)
      refine ⟨i1, fun k => ?_⟩
      rw [List.foldl_cons, i2, List.reverse_cons, List.find?_append, Dict.get?_set]
      cases l.reverse.find? (fun q => decide (Key.s q.1.name = k)) with
      | some r => simp
      | none =>
        by_cases e : Key.s q.1.name = k
        · simp [e]
        · simp [e]
  rw [pick_asked]
  obtain ⟨k1, k2⟩ := key (((Asked o names).filter (fun t => decide (Tpl.name t ≠ []))).zip vs) [] (by simp [Dict.WF, Dict.keys])
  refine ⟨t, vs, ess, _, h2, rfl, e, h7, h6, k1, fun k => ?_⟩
  rw [k2]
  simp [Dict.get?]

end

/-- C155. Without keyword arguments nothing happens outside, and the answer is made of the stored results. -/
theorem C155_without (C : TplCtx) (W : OutWorld) (M : Tpl → Dict Str (Val → PyM Val)) (o : TTPObj) (names : List Str) (shape : Str) :
    (lower shape = c!"list" → resultCall C W M o names shape [] = .ok (.list (resultList o names), [])) ∧
    (lower shape = c!"flat_list" → resultCall C W M o names shape [] = .ok (.list (resultFlat o names), [])) ∧
    (lower shape = c!"dictionary" → resultCall C W M o names shape [] =
      .ok (.dict ((resultDict o names).map (fun kv => (.s kv.1, kv.2))), [])) := by
  refine ⟨?_, ?_, ?_⟩
  · intro h
    unfold resultCall
    rw [h]
    rfl
  · intro h
    unfold resultCall
    rw [h, C40_flat_list]
    show Except.ok (Val.list _, _) = _
    have : ∀ (vs acc : List Val), vs.foldl (fun ret v => ret ++ flatItems v) acc = acc ++ vs.flatMap flatItems := by
      intro vs
      induction vs with
      | nil => simp
      | cons x xs ih => intro acc; rw [List.foldl_cons, ih]; simp
    rw [this, List.nil_append]
    congr 3
    congr 1
    funext a
    rw [flatItems_eq]
    cases a <;> rfl
  · intro h
    unfold resultCall
    rw [h]
    show Except.ok (Val.dict _, _) = _
    congr 3
    unfold resultDict
    have hset : ∀ (d : Dict Str Val) (k : Str) (v : Val),
        Dict.set (d.map (fun kv => (Key.s kv.1, kv.2))) (.s k) v = (Dict.set d k v).map (fun kv => (Key.s kv.1, kv.2)) := by
      intro d k v
      induction d with
      | nil => rfl
      | cons q d ih =>
        obtain ⟨a, b⟩ := q
        by_cases e : a = k
        · subst e; simp [Dict.set]
        · simp [Dict.set, e, ih]
    have : ∀ (ts : List Tpl) (acc : Dict Str Val),
        (ts.zip (ts.map (·.results))).foldl (fun d q => Dict.set d (Key.s q.1.name) q.2) (acc.map (fun kv => (Key.s kv.1, kv.2))) =
        (ts.foldl (fun d t => Dict.set d t.name t.results) acc).map (fun kv => (Key.s kv.1, kv.2)) := by
      intro ts
      induction ts with
      | nil => intro acc; rfl
      | cons t ts ih =>
        intro acc
        rw [List.map_cons, List.zip_cons_cons, List.foldl_cons, List.foldl_cons, hset, ih]
    exact this _ []

/-- C155. With another structure the answer is `None` and no returner runs, whatever the templates have. -/
theorem C155_other (C : TplCtx) (W : OutWorld) (M : Tpl → Dict Str (Val → PyM Val)) (o : TTPObj) (names : List Str) (shape : Str) (kw : Dict Str Val)
    (h1 : lower shape ≠ c!"list") (h2 : lower shape ≠ c!"dictionary") (h3 : lower shape ≠ c!"flat_list") (v : Val) (es : List Eff)
    (h : resultCall C W M o names shape kw = .ok (v, es)) : v = .none ∧ es = [] := by
  unfold resultCall at h
  obtain ⟨t, _, h⟩ := (bind_ok_iff _ _ _).1 h
  rw [if_neg h1, if_neg h2, if_neg h3] at h
  simp only [pure_ok, Except.ok.injEq, Prod.mk.injEq] at h
  exact ⟨h.1.symm, h.2.symm⟩

/-- C155. An output of `result` belongs to no template, so that `condition` is of no use there: it raises for the first template. -/
theorem C155_condition (C : TplCtx) (W : OutWorld) (M : Tpl → Dict Str (Val → PyM Val)) (o : TTPObj) (names : List Str) (kw : Dict Str Val)
    (hw : Dict.WF kw) (hlow : ∀ n ∈ Dict.keys kw, lower n ∈ outOptions → lower n = n) (v : Val) (f : FnCall) (fs : List FnCall)
    (hc : Dict.get? kw c!"condition" = some v) (hf : getAttributes C.load (c!"condition(" ++ pyStr v ++ c!")") = .ok (f :: fs)) (ha : f.args ≠ [])
    (ht : Asked o names ≠ []) : ∃ e, resultCall C W M o names c!"list" kw = .error e := by
  have hl : lower c!"list" = c!"list" := by decide
  cases h : resultCall C W M o names c!"list" kw with
  | error e => exact ⟨e, rfl⟩
  | ok r =>
    exfalso
    unfold resultCall at h
    obtain ⟨t, h1, h⟩ := (bind_ok_iff _ _ _).1 h
    rw [hl, if_pos rfl] at h
    obtain ⟨⟨vs, es⟩, h2, _⟩ := (bind_ok_iff _ _ _).1 h
    unfold resultTag at h1
    cases kw with
    | nil => cases hc
    | cons q kw =>
      obtain ⟨t', h3, h1⟩ := (bind_ok_iff _ _ _).1 h1
      simp only [pure_ok, Except.ok.injEq] at h1
      subst h1
      have h4 := (kwTag_iff C W _ hw hlow t' h3).out.condition
      unfold Option' at h4
      rw [overlay_get _ _ outDefaults_WF hw, hc] at h4
      obtain ⟨f', fs', h5, h6⟩ := h4
      rw [hf] at h5
      simp only [Except.ok.injEq, List.cons.injEq] at h5
      obtain ⟨⟨rfl, rfl⟩, rfl⟩ := h5
      rw [pick_asked] at h2
      cases hp : Asked o names with
      | nil => exact ht hp
      | cons p ps =>
        rw [hp] at h2
        simp only [reported, runEach] at h2
        obtain ⟨r, h7, _⟩ := (bind_ok_iff _ _ _).1 h2
        unfold runAlone at h7
        rw [h6] at h7
        cases hfa : f.args with
        | nil => exact ha hfa
        | cons a as =>
          rw [hfa] at h7
          cases as with
          | nil => cases h7
          | cons b bs => cases bs <;> cases h7

/-! ## Examples for C155 -/

namespace Ex

/-- two templates with names and one without, with results -/
def rObj : TTPObj := ⟨[{ tpl0 with name := c!"a", results := .list [.list [.int 1], .int 2] }, { tpl0 with name := [], results := .list [.int 3] },
  { tpl0 with name := c!"a", results := .dict [(.s c!"x", .int 4)] }], [], [], []⟩
/-- keyword arguments: formatted as JSON, on the terminal as well -/
def rKw : Dict Str Val := [(c!"format", .str c!"json"), (c!"returner", .str c!"self, terminal")]

end Ex
open Ex

theorem rKw_meets : rKw ≠ [] ∧ Dict.WF rKw ∧ (∀ n ∈ Dict.keys rKw, lower n ∈ outOptions → lower n = n) ∧ c!"condition" ∉ Dict.keys rKw := by
  refine ⟨by decide, by unfold Dict.WF; decide, ?_, by decide⟩
  have : ∀ n ∈ Dict.keys rKw, lower n = n := by decide
  exact fun n h _ => this n h

/-- the hypotheses of `C155_list` and `C155_flat_list` are met: the formatted texts are answered and printed, for the template named -/
theorem C155_example_list : resultCall ctxO ow (fun _ => []) rObj [[]] c!"LIST" rKw =
    .ok (.list [.str c!"[\n    3\n]"], [.print c!"[\n    3\n]"]) := by decide +kernel

/-- the hypotheses of `C155_dictionary` are met: the last template of the name wins, but the results of all are printed -/
theorem C155_example_dictionary : resultCall ctxO ow (fun _ => []) rObj [] c!"dictionary" [(c!"returner", .str c!"terminal, self")] =
    .ok (.dict [(.s c!"a", .dict [(.s c!"x", .int 4)])], [.print c!"[[1], 2]", .print c!"{'x': 4}"]) := by decide +kernel

/-- the hypotheses of `C155_flat_list` are met -/
theorem C155_example_flat : resultCall ctxO ow (fun _ => []) rObj [] c!"flat_list" [(c!"returner", .str c!"self")] =
    .ok (.list [.int 1, .int 2, .int 3, .dict [(.s c!"x", .int 4)]], []) := by decide +kernel

/-- without `self` among the returners the results stay as they are -/
theorem C155_example_raw : resultCall ctxO ow (fun _ => []) rObj [[]] c!"list" [(c!"format", .str c!"json"), (c!"returner", .str c!"terminal")] =
    .ok (.list [.list [.int 3]], [.print c!"[\n    3\n]"]) := by decide +kernel

/-- the hypotheses of `C155_condition` are met -/
example : ∃ e, resultCall ctxO ow (fun _ => []) rObj [] c!"list" [(c!"condition", .str c!"a")] = .error e :=
  C155_condition ctxO ow _ rObj [] _ (by unfold Dict.WF; decide) (by
    have : ∀ n ∈ Dict.keys [(c!"condition", Val.str c!"a")], lower n = n := by decide
    exact fun n h _ => this n h) (.str c!"a") ⟨c!"condition", [.str c!"a"], []⟩ [] rfl (by decide +kernel) (by simp) (by decide)

/-! ## C156 -/

section
variable (C : TplCtx) (macros : Str → Option (Str → PyM Str)) (limit : Nat) (tpl : List TplLine) (hne : tpl ≠ [])
    (ho : ∀ l ∈ tpl, l.OK) (text : Str) (hl : LinesOf tpl text) (h1 : '<' ∉ text) (h2 : '&' ∉ text) (h3 : Lacks c!"]]>" text)
    (h4 : ∀ c ∈ text, XChar c) (h5 : '\r' ∉ text) (arg : Str) (ht : Given C.eng.world arg text ∧ arg ≠ [] ∧ text ≠ []) (base : Str)
    (vars : Dict Str Val) (hw : ∀ k dd, (k, Val.dict dd) ∈ vars → Dict.WF dd) (hv : ∀ kv ∈ vars, ¬ Getter C kv.2) (data : Str) (hd : data ≠ [])
    (hp : NotAPath C.eng.world data ∧ Clear tpl data) (W : OutWorld) (M : Tpl → Dict Str (Val → PyM Val))
include hne ho hl h1 h2 h3 h4 h5 ht hw hv hd hp

theorem quick_object : ∃ o1 o2 v, newTTP C ⟨XmlText.parse, XmlText.tostring true, macros, limit⟩ (.str data) (.str arg) base vars = .ok o1 ∧
    parseOne C.eng o1 = .ok o2 ∧ PlainMeans tpl data v ∧ resultList o2 [] = [.list [v]] := by
  obtain ⟨o1, o2, vs, g1, g2, g3, g4⟩ := C139_plain_template C macros limit tpl hne ho text hl h1 h2 h3 h4 h5 arg ht base vars hw hv data hd []
    (by intro q hq; simp only [List.mem_cons, List.not_mem_nil, or_false] at hq; subst hq; exact hp) (.inr (by simp))
  have hg : gathered [(c!"Default_Input", data)] = [data] := by
    unfold gathered
    simp only [List.map_cons, List.map_nil, List.eraseDups_cons, List.filter_nil, List.eraseDups_nil, List.flatMap_cons, List.flatMap_nil,
      List.filter_cons, decide_true, if_true, List.append_nil]
  rw [hg] at g3
  cases g3 with
  | cons a b =>
    cases b
    exact ⟨o1, o2, _, g1, g2, a, g4⟩

/-- C156. `quick_parse(data, template)` with a template that is only lines of text: one result, with the record of the data, the list of their
records, or an empty dictionary. -/
theorem C156_plain : ∃ v, PlainMeans tpl data v ∧
    quickParse C ⟨XmlText.parse, XmlText.tostring true, macros, limit⟩ W M (.str data) (.str arg) base vars [] = .ok (.list [.list [v]], []) := by
  obtain ⟨o1, o2, v, g1, g2, g3, g4⟩ := quick_object C macros limit tpl hne ho text hl h1 h2 h3 h4 h5 arg ht base vars hw hv data hd hp
  refine ⟨v, g3, ?_⟩
  have ht : (Val.str data).truthy = true := by
    cases data with
    | nil => exact absurd rfl hd
    | cons _ _ => rfl
  unfold quickParse
  rw [if_pos ht, g1, ok_bind, g2, ok_bind, (C155_without C W M o2 [] c!"list").1 (by decide), g4]

/-- C156. `quick_parse(data, template, result_kwargs={...})`: what the output made of these arguments makes of that one result. -/
theorem C156_output (kw : Dict Str Val) (hk : kw ≠ []) (hkw : Dict.WF kw) (hlow : ∀ n ∈ Dict.keys kw, lower n ∈ outOptions → lower n = n)
    (hcond : c!"condition" ∉ Dict.keys kw) (r : Val) (es : List Eff)
    (h : quickParse C ⟨XmlText.parse, XmlText.tostring true, macros, limit⟩ W M (.str data) (.str arg) base vars kw = .ok (r, es)) :
    ∃ v t a m, PlainMeans tpl data v ∧ OutputWith C W kw t ∧ OutputGives C.eng { W with macros := m } t (.list [v]) a es ∧ r = .list [a] := by
  obtain ⟨o1, o2, v, g1, g2, g3, g4⟩ := quick_object C macros limit tpl hne ho text hl h1 h2 h3 h4 h5 arg ht base vars hw hv data hd hp
  have ht : (Val.str data).truthy = true := by
    cases data with
    | nil => exact absurd rfl hd
    | cons _ _ => rfl
  unfold quickParse at h
  rw [if_pos ht, g1, ok_bind, g2, ok_bind] at h
  obtain ⟨t, vs, ess, k1, rfl, rfl, k2, k3⟩ := C155_list C W M o2 [] kw hk hkw hlow hcond c!"list" (by decide) r es h
  rw [C40_list] at g4
  change (Asked o2 []).map (·.results) = _ at g4
  cases ha : Asked o2 [] with
  | nil => rw [ha] at g4; cases g4
  | cons p ps =>
    rw [ha] at g4 k3
    simp only [List.map_cons, List.cons.injEq, List.map_eq_nil_iff] at g4
    obtain ⟨g4, rfl⟩ := g4
    cases vs with
    | nil => cases k3
    | cons a vs =>
      cases ess with
      | nil => cases k3
      | cons e ess =>
        cases k3 with
        | cons k4 k5 =>
          have : vs = [] ∧ ess = [] := by
            cases vs with
            | nil => cases ess with
              | nil => exact ⟨rfl, rfl⟩
              | cons _ _ => simp at k2
            | cons _ _ => cases ess with
              | nil => simp at k2
              | cons _ _ => cases k5
          obtain ⟨rfl, rfl⟩ := this
          rw [g4] at k4
          refine ⟨v, t, a, M p, g3, k1, ?_, rfl⟩
          simpa using k4

end

/-- C156. Data that are `None` or empty are not given to the object: the template is used with its own inputs only. -/
theorem C156_no_data (C : TplCtx) (X : ExtCtx) (W : OutWorld) (M : Tpl → Dict Str (Val → PyM Val)) (template : Val) (base : Str)
    (vars kw : Dict Str Val) (data : Val) (h : data = .none ∨ data = .str []) :
    quickParse C X W M data template base vars kw = (do
      let o ← newTTP C X (.str []) template base vars
      let o' ← parseOne C.eng o
      resultCall C W M o' [] c!"list" kw) := by
  rcases h with rfl | rfl <;> rfl

/-- the hypotheses of `C156_plain` are met -/
example : ∃ v, PlainMeans [wl1, wl2] wtext v ∧
    quickParse tctx ⟨XmlText.parse, XmlText.tostring true, fun _ => none, 0⟩ ow (fun _ => []) (.str wtext) (.str ptext) [] [] [] =
      .ok (.list [.list [v]], []) := by
  refine C156_plain tctx (fun _ => none) 0 [wl1, wl2] (by simp) wl_ok ptext plines (by decide) (by decide) ?_ ?_ (by decide)
    ptext ⟨.text ⟨by decide, rfl, rfl, by intro d hd; cases hd⟩, by decide, by decide⟩ [] [] (by simp) (by simp) wtext (by decide)
    ⟨⟨by decide, rfl, rfl, by intro d hd; cases hd⟩, wclear⟩ ow _
  · intro a b e
    have : ']' ∈ ptext := by rw [e]; simp
    revert this; decide
  · have : ∀ c ∈ ptext, XmlText.isChar c = true := by decide
    intro c hc
    exact (XmlText.isChar_iff c).1 (this c hc)

end Props
