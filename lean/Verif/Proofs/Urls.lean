import Verif.Spec.Urls
import Verif.Proofs.Files
import Verif.Props.MatchStr
/-!
# Lemmas: input tags with urls
-/

namespace Props
open Py Spec TTP

theorem splitC_last (f : Str) : ∃ e, (splitC '.' f).getLast? = some e ∧ '.' ∉ e ∧ (f = e ∨ ∃ b, f = b ++ '.' :: e) := by
  induction f with
  | nil => exact ⟨[], rfl, by simp, Or.inl rfl⟩
  | cons c f ih =>
    obtain ⟨e, h1, h2, h3⟩ := ih
    by_cases hc : c = '.'
    · subst hc
      refine ⟨e, ?_, h2, Or.inr ?_⟩
      · have : splitC '.' ('.' :: f) = [] :: splitC '.' f := by rw [splitC]; simp
        rw [this, List.getLast?_cons, h1]; rfl
      · rcases h3 with h3 | ⟨b, h3⟩
        · exact ⟨[], by rw [h3]; rfl⟩
        · exact ⟨'.' :: b, by rw [h3]; rfl⟩
    · cases hs : splitC '.' f with
      | nil => exact absurd hs (splitC_ne_nil _ _)
      | cons x xs =>
        have e0 : splitC '.' (c :: f) = (c :: x) :: xs := by rw [splitC, if_neg hc, hs]
        rw [hs] at h1
        cases xs with
        | nil =>
          simp only [List.getLast?_singleton, Option.some.injEq] at h1
          subst h1
          have hj := join_splitC '.' f
          rw [hs] at hj
          have hf : f = x := by simpa [join] using hj.symm
          refine ⟨c :: x, by rw [e0]; rfl, ?_, Or.inl (by rw [hf])⟩
          simp only [List.mem_cons, not_or]
          exact ⟨fun e => hc e.symm, h2⟩
        | cons y ys =>
          refine ⟨e, by rw [e0]; simpa using h1, h2, Or.inr ?_⟩
          rcases h3 with h3 | ⟨b, h3⟩
          · exfalso
            have hj := join_splitC '.' f
            rw [hs] at hj
            apply h2
            rw [← h3, ← hj]
            simp [join]
          · exact ⟨c :: b, by rw [h3]; rfl⟩

theorem ext_iff (f e : Str) (h : (splitC '.' f).getLast? = some e) (e' : Str) : Extension f e' ↔ e' = e := by
  obtain ⟨e0, h1, h2, h3⟩ := splitC_last f
  rw [h] at h1
  simp only [Option.some.injEq] at h1
  subst h1
  constructor
  · rintro ⟨h4, h5⟩
    rcases h5 with h5 | ⟨b, h5⟩
    · rcases h3 with h3 | ⟨b', h3⟩
      · rw [← h5, ← h3]
      · exfalso; apply h4; rw [← h5, h3]; simp
    · rcases h3 with h3 | ⟨b', h3⟩
      · exfalso; apply h2; rw [← h3, h5]; simp
      · have : b ++ '.' :: e' = b' ++ '.' :: e := by rw [← h5, ← h3]
        have r := congrArg List.reverse this
        simp only [List.reverse_append, List.reverse_cons, List.append_assoc, List.singleton_append] at r
        have key : ∀ (u v p q : Str), '.' ∉ u → '.' ∉ v → u ++ '.' :: p = v ++ '.' :: q → u = v := by
          intro u
          induction u with
          | nil => intro v p q _ hv he; cases v with
            | nil => rfl
            | cons a v => simp only [List.nil_append, List.cons_append, List.cons.injEq] at he; exact absurd (by rw [← he.1]; simp) hv
          | cons a u ih => intro v p q hu hv he; cases v with
            | nil => simp only [List.nil_append, List.cons_append, List.cons.injEq] at he; exact absurd (by rw [he.1]; simp) hu
            | cons b v =>
              simp only [List.cons_append, List.cons.injEq] at he
              rw [he.1, ih v p q (fun h => hu (by simp [h])) (fun h => hv (by simp [h])) he.2]
        have := key e'.reverse e.reverse _ _ (by simpa using h4) (by simpa using h2) r
        simpa using congrArg List.reverse this
  · intro h4
    subst h4
    exact ⟨h2, h3⟩

theorem passesFilters_iff (C : TplCtx) (f : Str) (ps : List Str) (b : Bool) (h : passesFilters C f ps = .ok b) :
    b = true ↔ ∀ p ∈ ps, ∃ r, C.load.re p = some r ∧ ∃ k, k ≤ f.length ∧ Re.run r (f.drop k) ≠ [] := by
  induction ps with
  | nil => simp only [passesFilters, pure_ok, Except.ok.injEq] at h; simp [← h]
  | cons p ps ih =>
    rw [passesFilters] at h
    cases hr : C.load.re p with
    | none => rw [hr] at h; simp [throw_err] at h
    | some r =>
      rw [hr] at h
      dsimp only at h
      by_cases hs : (Re.search r f).isSome = true
      · rw [if_pos hs] at h
        rw [ih h]
        have := (search_iff r f).1 hs
        constructor
        · intro hh q hq
          rcases List.mem_cons.1 hq with e | hq
          · subst e; exact ⟨r, hr, this⟩
          · exact hh q hq
        · intro hh q hq; exact hh q (by simp [hq])
      · rw [if_neg hs, pure_ok, Except.ok.injEq] at h
        subst h
        simp only [Bool.false_eq_true, false_iff]
        intro hh
        obtain ⟨r', h1, h2⟩ := hh p (by simp)
        rw [hr] at h1
        simp only [Option.some.injEq] at h1
        subst h1
        exact hs ((search_iff r f).2 h2)

open Classical in
theorem selectFiles_eq (C : TplCtx) (exts filters : List Str) (fs l : List Str) (h : selectFiles C exts filters fs = .ok l) :
    l = fs.filter (fun f => decide (Passes C.load.re exts filters f)) := by
  induction fs generalizing l with
  | nil => simp only [selectFiles, pure_ok, Except.ok.injEq] at h; simp [← h]
  | cons f fs ih =>
    rw [selectFiles] at h
    obtain ⟨rest, h1, h⟩ := (bind_ok_iff _ _ _).1 h
    have ih := ih rest h1
    obtain ⟨e, he, _⟩ := splitC_last f
    have hext : (exts = [] ∨ ∃ e' ∈ exts, Extension f e') ↔ ¬ (exts ≠ [] ∧ ((splitC '.' f).getLast?).getD [] ∉ exts) := by
      rw [he, Option.getD_some]
      constructor
      · rintro (h | ⟨e', h1, h2⟩) ⟨h3, h4⟩
        · exact h3 h
        · rw [ext_iff f e he] at h2
          subst h2; exact h4 h1
      · intro h
        by_cases hx : exts = []
        · exact Or.inl hx
        · right
          refine ⟨e, ?_, (ext_iff f e he e).2 rfl⟩
          apply Classical.byContradiction
          intro h5; exact h ⟨hx, h5⟩
    split at h
    · rename_i hx
      rw [pure_ok, Except.ok.injEq] at h
      rw [← h, ih, List.filter_cons_of_neg]
      simp only [decide_eq_true_eq]
      intro hp
      exact (hext.1 hp.1) hx
    · rename_i hx
      obtain ⟨b, h2, h⟩ := (bind_ok_iff _ _ _).1 h
      have hp := passesFilters_iff C f filters b h2
      cases b with
      | true =>
        simp only [if_true, pure_ok, Except.ok.injEq] at h
        rw [← h, ih, List.filter_cons_of_pos]
        simp only [decide_eq_true_eq]
        exact ⟨hext.2 hx, hp.1 rfl⟩
      | false =>
        simp only [Bool.false_eq_true, if_false, pure_ok, Except.ok.injEq] at h
        rw [← h, ih, List.filter_cons_of_neg]
        simp only [decide_eq_true_eq]
        intro hq
        exact absurd (hp.2 hq.2) (by simp)

theorem loadUrl_data (C : TplCtx) (exts filters : List Str) (p : Str) (ds : List Datum) (h : loadUrl C exts filters p = .ok ds) :
    UrlData C exts filters p ds := by
  by_cases h1 : c!"ttp://" <+: p
  · have : loadUrl C exts filters p = .ok [⟨.text, .str (C.eng.world.ttpTemplate (replace p c!"ttp://" []))⟩] := by
      unfold loadUrl loadFiles
      simp [prefix_startsWith _ _ h1, pure_ok]
    rw [this, Except.ok.injEq] at h
    rw [← h]; exact .collection h1
  · have h1' := not_prefix_startsWith _ _ h1
    cases h2 : C.eng.world.isFile (p.take 5000) with
    | true =>
      have : loadUrl C exts filters p = .ok [⟨.file, .str p⟩] := by
        unfold loadUrl loadFiles
        simp [h1', h2, pure_ok]
      rw [this, Except.ok.injEq] at h
      rw [← h]; exact .file h1 h2
    | false =>
      by_cases h3 : ∃ d, C.eng.world.templatesDir = some d ∧ d ≠ [] ∧ C.eng.world.isFile (d ++ '/' :: p.take 5000) = true
      · obtain ⟨d, hd, hd2, hd3⟩ := h3
        have h4 : d.isEmpty = false := by cases d <;> simp_all
        have h5 : C.eng.world.isFile (pathJoin d (p.take 5000)) = true := hd3
        have : loadUrl C exts filters p = .ok [⟨.file, .str (d ++ '/' :: p.take 5000)⟩] := by
          unfold loadUrl loadFiles
          simp [h1', h2, pure_ok, hd, h4, h5]
          rfl
        rw [this, Except.ok.injEq] at h
        rw [← h]; exact .shared h1 h2 hd hd2 hd3
      · have h3' : ∀ d, C.eng.world.templatesDir = some d → d = [] ∨ C.eng.world.isFile (d ++ '/' :: p.take 5000) = false := by
          intro d hd
          by_cases hd2 : d = []
          · exact Or.inl hd2
          · right
            cases hd3 : C.eng.world.isFile (d ++ '/' :: p.take 5000) with
            | false => rfl
            | true => exact absurd ⟨d, hd, hd2, hd3⟩ h3
        cases h4 : C.eng.world.isDir (p.take 5000) with
        | false =>
          have : loadUrl C exts filters p = .ok (loadFiles C.eng.world (.str p)) := by
            unfold loadUrl; simp [h4, pure_ok]
          rw [this, loadFiles_text _ _ ⟨h1, h2, h4, h3'⟩, Except.ok.injEq] at h
          rw [← h]; exact .text ⟨h1, h2, h4, h3'⟩
        | true =>
          have hu : loadUrl C exts filters p =
              (selectFiles C exts filters ((C.eng.world.listdir p).filter (fun f => C.eng.world.isFile (pathJoin p f)))) >>=
                fun fs => pure (fs.map (fun f => (⟨.file, .str (pathJoin p f)⟩ : Datum))) := by
            unfold loadUrl
            dsimp only
            cases hd : C.eng.world.templatesDir with
            | none => simp [h1', h2, h4]
            | some d =>
              rcases h3' d hd with e | e
              · subst e; simp [h1', h2, h4]
              · have e' : C.eng.world.isFile (pathJoin d (p.take 5000)) = false := e
                simp [e', h1', h2, h4]
          rw [hu] at h
          obtain ⟨fs, hf, h⟩ := (bind_ok_iff _ _ _).1 h
          rw [pure_ok, Except.ok.injEq] at h
          have hs := selectFiles_eq C exts filters _ _ hf
          rw [← h, hs, List.filter_filter]
          have hd := UrlData.dir (C := C) (exts := exts) (filters := filters) h1 h2 h3' h4
          refine cast ?_ hd
          congr 2
          apply List.filter_congr
          intro f _
          rw [Bool.and_comm]; rfl

theorem loadUrls_data (C : TplCtx) (base : Str) (exts filters : List Str) (us : List Str) (ds : List Datum)
    (h : loadUrls C base exts filters us = .ok ds) :
    ∃ dss, All2 (fun u ds => UrlData C exts filters (base ++ u) ds) us dss ∧ ds = dss.flatten := by
  induction us generalizing ds with
  | nil => simp only [loadUrls, pure_ok, Except.ok.injEq] at h; exact ⟨[], .nil, by simp [← h]⟩
  | cons u us ih =>
    rw [loadUrls] at h
    obtain ⟨d1, h1, h⟩ := (bind_ok_iff _ _ _).1 h
    obtain ⟨d2, h2, h⟩ := (bind_ok_iff _ _ _).1 h
    rw [pure_ok, Except.ok.injEq] at h
    obtain ⟨dss, h3, h4⟩ := ih d2 h2
    exact ⟨d1 :: dss, .cons (loadUrl_data C exts filters _ _ h1) h3, by rw [← h, h4]; rfl⟩

/-! ### attributes -/

/-- what reading `load` does -/
structure LoadStep (L : InSt → InSt) (lu le lf : Bool) (U X F : List Str) : Prop where
  name : ∀ s, (L s).name = s.name
  groups : ∀ s, (L s).groups = s.groups
  functions : ∀ s, (L s).functions = s.functions
  load : ∀ s, (L s).load ≠ c!"text"
  urls : ∀ s, (L s).urls = if lu then U else s.urls
  exts : ∀ s, (L s).extensions = if le then X else s.extensions
  filters : ∀ s, (L s).filters = if lf then F else s.filters

theorem inAttrsWith_urls (C : TplCtx) (gs : List TopGroup) (text : Option Str) (all : Dict Str Val) (nested : Dict Str Val → InSt → PyM InSt)
    (d : Dict Str Val) (hw : Dict.WF d) (n : Str) (names U X F : List Str) (L : InSt → InSt) (lu le lf : Bool) (hL : LoadStep L lu le lf U X F)
    (hk : ∀ k ∈ Dict.keys d, k ∈ [c!"name", c!"load", c!"groups", c!"url", c!"extensions", c!"filters"])
    (hn : ∀ v, Dict.get? d c!"name" = some v → ∃ t, v = .str t ∧ strip t = n)
    (hl : ∀ v, Dict.get? d c!"load" = some v → ∃ t, v = .str t ∧ strip t ≠ c!"text" ∧ ∃ p, loadStruct C text all = .ok p ∧
      ((p = .none ∧ ∀ s, L s = { s with load := strip t }) ∨
        ∃ dd, p = .dict dd ∧ ((dd = [] ∧ ∀ s, L s = { s with load := strip t }) ∨
          (dd ≠ [] ∧ ∀ s, nested (strKeys dd) { s with load := strip t, parameters := .dict dd } = .ok (L s)))))
    (hg : ∀ v, Dict.get? d c!"groups" = some v → groupNames v = .ok names)
    (hu : ∀ v, Dict.get? d c!"url" = some v → textList v = .ok U) (he : ∀ v, Dict.get? d c!"extensions" = some v → textList v = .ok X)
    (hf : ∀ v, Dict.get? d c!"filters" = some v → textList v = .ok F) (s : InSt) (hs : s.name = n) (hs2 : s.load ≠ c!"text") :
    ∃ s', inAttrsWith C gs text all nested d s = .ok s' ∧ s'.name = n ∧ s'.functions = s.functions ∧ s'.load ≠ c!"text" ∧
      s'.groups = (if Dict.has d c!"groups" then inputGroups gs n names else s.groups) ∧
      s'.urls = (if Dict.has d c!"url" || (Dict.has d c!"load" && lu) then U else s.urls) ∧
      s'.extensions = (if Dict.has d c!"extensions" || (Dict.has d c!"load" && le) then X else s.extensions) ∧
      s'.filters = (if Dict.has d c!"filters" || (Dict.has d c!"load" && lf) then F else s.filters) := by
  induction d generalizing s with
  | nil => exact ⟨s, rfl, hs, rfl, hs2, rfl, rfl, rfl, rfl⟩
  | cons kv d ih =>
    obtain ⟨k, v⟩ := kv
    have hw' := (Dict.WF_cons k v d).1 hw
    have hnn := (Dict.get?_eq_none_iff d k).2 hw'.1
    have sub : ∀ q w, Dict.get? d q = some w → Dict.get? ((k, v) :: d) q = some w := by
      intro q w hq
      rw [Dict.get?_cons, if_neg]
      · exact hq
      · intro e; subst e; rw [hnn] at hq; exact absurd hq (by simp)
    have ih := ih hw'.2 (fun q hq => hk q (by simp only [Dict.keys, List.map_cons, List.mem_cons]; right; exact hq))
      (fun w hq => hn w (sub _ _ hq)) (fun w hq => hl w (sub _ _ hq)) (fun w hq => hg w (sub _ _ hq)) (fun w hq => hu w (sub _ _ hq))
      (fun w hq => he w (sub _ _ hq)) (fun w hq => hf w (sub _ _ hq))
    have hk0 := hk k (by simp [Dict.keys])
    simp only [List.mem_cons, List.not_mem_nil, or_false] at hk0
    rw [inAttrsWith.eq_def]
    dsimp only
    have hh : ∀ q, Dict.has ((k, v) :: d) q = (decide (k = q) || Dict.has d q) := by
      intro q; unfold Dict.has; rw [Dict.get?_cons]
      by_cases e : k = q <;> simp [e]
    simp only [hh]
    rcases hk0 with e | e | e | e | e | e
    · subst e
      obtain ⟨t, ht, hst⟩ := hn v (by simp [Dict.get?_cons])
      subst ht
      rw [if_pos (by decide)]
      simp only [asText, pure_ok, ok_bind, hst]
      obtain ⟨s', h1, h2, h3, h4, h5, h6, h7, h8⟩ := ih { s with name := n } rfl hs2
      exact ⟨s', h1, h2, h3, h4, by rw [h5]; rfl, by rw [h6]; rfl, by rw [h7]; rfl, by rw [h8]; rfl⟩
    · subst e
      obtain ⟨t, ht, hst, p, hp, hL2⟩ := hl v (by simp [Dict.get?_cons])
      subst ht
      rw [if_neg (by decide), if_pos (by decide)]
      simp only [asText, pure_ok, ok_bind, if_neg hst, hp]
      obtain ⟨s', h1, h2, h3, h4, h5, h6, h7, h8⟩ := ih (L s) (by rw [hL.name]; exact hs) (hL.load s)
      rw [hL.urls] at h6
      rw [hL.exts] at h7
      rw [hL.filters] at h8
      rw [hL.groups] at h5
      rw [hL.functions] at h3
      have goal : ∃ s', inAttrsWith C gs text all nested d (L s) = .ok s' ∧ s'.name = n ∧ s'.functions = s.functions ∧ s'.load ≠ c!"text" ∧
          s'.groups = (if (decide (c!"load" = c!"groups") || Dict.has d c!"groups") then inputGroups gs n names else s.groups) ∧
          s'.urls = (if (decide (c!"load" = c!"url") || Dict.has d c!"url") || ((decide (c!"load" = c!"load") || Dict.has d c!"load") && lu) then U else s.urls) ∧
          s'.extensions = (if (decide (c!"load" = c!"extensions") || Dict.has d c!"extensions") || ((decide (c!"load" = c!"load") || Dict.has d c!"load") && le) then X else s.extensions) ∧
          s'.filters = (if (decide (c!"load" = c!"filters") || Dict.has d c!"filters") || ((decide (c!"load" = c!"load") || Dict.has d c!"load") && lf) then F else s.filters) := by
        refine ⟨s', h1, h2, h3, h4, by rw [h5]; rfl, ?_, ?_, ?_⟩
        · rw [h6]; cases lu <;> simp
        · rw [h7]; cases le <;> simp
        · rw [h8]; cases lf <;> simp
      rcases hL2 with ⟨e1, e2⟩ | ⟨dd, e1, ⟨e2, e3⟩ | ⟨e2, e3⟩⟩
      · subst e1
        simp only [Val.truthy, Bool.false_eq_true, if_false]
        rw [← e2 s]; exact goal
      · subst e1
        simp only [e2, if_true]
        rw [← e3 s]; exact goal
      · subst e1
        simp only [if_neg e2, e3, ok_bind]
        exact goal
    · subst e
      have hgv := hg v (by simp [Dict.get?_cons])
      rw [if_neg (by decide), if_neg (by decide), if_pos (by decide), hgv, ok_bind, hs]
      obtain ⟨s', h1, h2, h3, h4, h5, h6, h7, h8⟩ := ih { s with name := n, groups := inputGroups gs n names } rfl hs2
      refine ⟨s', h1, h2, h3, h4, ?_, by rw [h6]; rfl, by rw [h7]; rfl, by rw [h8]; rfl⟩
      rw [h5]; simp
    · subst e
      have hv := hu v (by simp [Dict.get?_cons])
      rw [if_neg (by decide), if_neg (by decide), if_neg (by decide), if_neg (by decide), if_neg (by decide), if_pos (by decide), hv, ok_bind]
      obtain ⟨s', h1, h2, h3, h4, h5, h6, h7, h8⟩ := ih { s with urls := U } hs hs2
      refine ⟨s', h1, h2, h3, h4, by rw [h5]; rfl, ?_, by rw [h7]; rfl, by rw [h8]; rfl⟩
      rw [h6]; simp
    · subst e
      have hv := he v (by simp [Dict.get?_cons])
      rw [if_neg (by decide), if_neg (by decide), if_neg (by decide), if_pos (by decide), hv, ok_bind]
      obtain ⟨s', h1, h2, h3, h4, h5, h6, h7, h8⟩ := ih { s with extensions := X } hs hs2
      refine ⟨s', h1, h2, h3, h4, by rw [h5]; rfl, by rw [h6]; rfl, ?_, by rw [h8]; rfl⟩
      rw [h7]; simp
    · subst e
      have hv := hf v (by simp [Dict.get?_cons])
      rw [if_neg (by decide), if_neg (by decide), if_neg (by decide), if_neg (by decide), if_pos (by decide), hv, ok_bind]
      obtain ⟨s', h1, h2, h3, h4, h5, h6, h7, h8⟩ := ih { s with filters := F } hs hs2
      refine ⟨s', h1, h2, h3, h4, by rw [h5]; rfl, by rw [h6]; rfl, by rw [h7]; rfl, ?_⟩
      rw [h8]; simp

theorem textList_of {v : Val} {ss : List Str} (h : TextsOf v ss) : textList v = .ok ss := by
  cases h with
  | one s => rfl
  | many ss =>
    unfold textList
    dsimp only
    induction ss with
    | nil => rfl
    | cons s ss ih =>
      rw [List.map_cons, List.mapM_cons]
      dsimp only
      rw [pure_ok, ok_bind, ih]; rfl

theorem strKeys_map (d : Dict Str Val) : strKeys (d.map (fun kv => ((.s kv.1 : Key), kv.2))) = d := by
  unfold strKeys
  rw [List.filterMap_map]
  induction d with
  | nil => rfl
  | cons a d ih => rw [List.filterMap_cons]; simp only [Function.comp_apply]; rw [ih]

theorem loadInput_url (C : TplCtx) (gs : List TopGroup) (base : Str) (x : Xml) (q : UrlTag) (h : UrlInput C x q) (r : Str × TInput)
    (hr : loadInput C gs base x = .ok r) :
    ∃ data ps, loadUrls C base q.exts q.filters q.urls = .ok data ∧ r = (q.name, ⟨data, inputGroups gs q.name q.groups, [], ps⟩) := by
  have hav : Dict.WF x.attrib → Dict.WF (attrVals x.attrib) := by
    intro hw; unfold Dict.WF attrVals Dict.keys at *; rw [List.map_map]; exact hw
  have hkeys : Dict.keys (attrVals x.attrib) = Dict.keys x.attrib := by
    unfold attrVals Dict.keys; rw [List.map_map]; rfl
  have hla : Dict.get? (inputAttribs x.attrib) c!"load" = some (((Dict.get? x.attrib c!"load").map Val.str).getD (.str c!"python")) := by
    unfold inputAttribs
    rw [Dict.get?_setdefault, Dict.get?_setdefault, get?_attrVals]
    cases Dict.get? x.attrib c!"load" <;> simp
  have hga : Dict.get? (inputAttribs x.attrib) c!"groups" = some (((Dict.get? x.attrib c!"groups").map Val.str).getD (.list [.str c!"all"])) := by
    unfold inputAttribs
    rw [Dict.get?_setdefault, Dict.get?_setdefault, get?_attrVals]
    cases Dict.get? x.attrib c!"groups" <;> simp
  have hoa : ∀ k, k ≠ c!"load" → k ≠ c!"groups" → Dict.get? (inputAttribs x.attrib) k = (Dict.get? x.attrib k).map .str := by
    intro k h1 h2
    unfold inputAttribs
    rw [Dict.get?_setdefault, Dict.get?_setdefault, get?_attrVals, if_neg (fun e => h2 e.symm), if_neg (fun e => h1 e.symm)]
    cases Dict.get? x.attrib k <;> rfl
  have hkin : ∀ k ∈ Dict.keys (inputAttribs x.attrib), k = c!"load" ∨ k = c!"groups" ∨ k ∈ Dict.keys x.attrib := by
    intro k hk'
    by_cases e1 : k = c!"load"
    · exact Or.inl e1
    · by_cases e2 : k = c!"groups"
      · exact Or.inr (Or.inl e2)
      · right; right
        have : Dict.get? (inputAttribs x.attrib) k ≠ none := fun e => (Dict.get?_eq_none_iff _ _).1 e hk'
        rw [hoa k e1 e2] at this
        apply Classical.byContradiction
        intro e
        exact this (by rw [(Dict.get?_eq_none_iff _ _).2 e]; rfl)
  have hhl : Dict.has (inputAttribs x.attrib) c!"load" = true := by unfold Dict.has; rw [hla]; rfl
  have hhg : Dict.has (inputAttribs x.attrib) c!"groups" = true := by unfold Dict.has; rw [hga]; rfl
  have hho : ∀ k, k ≠ c!"load" → k ≠ c!"groups" → Dict.has (inputAttribs x.attrib) k = (Dict.get? x.attrib k).isSome := by
    intro k h1 h2; unfold Dict.has; rw [hoa k h1 h2, Option.isSome_map]
  have hN : ∀ v, q.name = strip ((Dict.get? x.attrib c!"name").getD c!"Default_Input") → Dict.get? (inputAttribs x.attrib) c!"name" = some v →
      ∃ t, v = .str t ∧ strip t = q.name := by
    intro v hn hv
    rw [hoa _ (by decide) (by decide)] at hv
    cases hq : Dict.get? x.attrib c!"name" with
    | none => rw [hq] at hv; simp at hv
    | some t =>
      rw [hq] at hv
      simp only [Option.map_some, Option.some.injEq] at hv
      exact ⟨t, hv.symm, by rw [hn, hq]; rfl⟩
  have hG : ∀ v, q.groups = groupsNamed x.attrib → Dict.get? (inputAttribs x.attrib) c!"groups" = some v → groupNames v = .ok q.groups := by
    intro v hg hv
    rw [hga] at hv
    simp only [Option.some.injEq] at hv
    subst hv
    rw [hg]; unfold groupsNamed
    cases Dict.get? x.attrib c!"groups" with
    | none => rfl
    | some g => rfl
  have fin : ∀ s', s'.name = q.name → s'.functions = [] → s'.load ≠ c!"text" → s'.groups = inputGroups gs q.name q.groups → s'.urls = q.urls →
      s'.extensions = q.exts → s'.filters = q.filters → ∀ n0, n0 = strip ((Dict.get? x.attrib c!"name").getD c!"Default_Input") →
      inAttrs C gs inputFuel x.text (inputAttribs x.attrib) ⟨n0, c!"python", [], [], [], [], [], .dict []⟩ = .ok s' →
      ∃ data ps, loadUrls C base q.exts q.filters q.urls = .ok data ∧ r = (q.name, ⟨data, inputGroups gs q.name q.groups, [], ps⟩) := by
    intro s' h1 h2 h3 h4 h5 h6 h7 n0 hn0 hs
    subst hn0
    unfold loadInput at hr
    dsimp only at hr
    rw [hs, ok_bind] at hr
    have e : (loadUrls C base q.exts q.filters q.urls >>= fun data =>
        pure (s'.name, (⟨data, s'.groups, s'.functions, s'.parameters⟩ : TInput))) = .ok r := by
      rw [← h5, ← h6, ← h7]
      split at hr
      · rw [if_neg h3] at hr; exact hr
      · exact hr
    obtain ⟨data, hd, hr⟩ := (bind_ok_iff _ _ _).1 e
    rw [pure_ok, Except.ok.injEq] at hr
    refine ⟨data, s'.parameters, hd, ?_⟩
    rw [← hr, h1, h2, h4]
  cases h with
  | tag hk hw hn hg ht hu he hf =>
    have step : LoadStep (fun s => { s with load := strip c!"python" }) false false false q.urls q.exts q.filters :=
      ⟨fun _ => rfl, fun _ => rfl, fun _ => rfl, fun _ => by simp only; decide, fun _ => rfl, fun _ => rfl, fun _ => rfl⟩
    have hload : Dict.get? x.attrib c!"load" = none := by
      apply (Dict.get?_eq_none_iff _ _).2
      intro hm
      have := hk _ hm
      revert this; decide
    have one : ∀ k (l : List Str), l = (Dict.get? x.attrib k).toList → k ≠ c!"load" → k ≠ c!"groups" →
        ∀ v, Dict.get? (inputAttribs x.attrib) k = some v → textList v = .ok l := by
      intro k l hl h1 h2 v hv
      rw [hoa k h1 h2] at hv
      cases hq : Dict.get? x.attrib k with
      | none => rw [hq] at hv; simp at hv
      | some t =>
        rw [hq] at hv hl
        simp only [Option.map_some, Option.some.injEq] at hv
        subst hv
        rw [hl]; rfl
    obtain ⟨s', h1, h2, h3, h4, h5, h6, h7, h8⟩ := inAttrsWith_urls C gs x.text (inputAttribs x.attrib) (fun d s => inAttrs C gs 999 (some []) d s)
      (inputAttribs x.attrib) (Dict.WF_setdefault _ _ _ (Dict.WF_setdefault _ _ _ (hav hw))) q.name q.groups q.urls q.exts q.filters _ false false false step
      (by
        intro k hk'
        rcases hkin k hk' with e | e | e
        · subst e; decide
        · subst e; decide
        · have := hk k e
          simp only [List.mem_cons, List.not_mem_nil, or_false] at this ⊢
          rcases this with e | e | e | e | e <;> simp [e])
      (fun v => hN v hn)
      (by
        intro v hv
        rw [hla, hload] at hv
        simp only [Option.map_none, Option.getD_none, Option.some.injEq] at hv
        subst hv
        refine ⟨c!"python", rfl, by decide, .none, ?_, Or.inl ⟨rfl, fun s => rfl⟩⟩
        unfold loadStruct
        rw [hla, hload]
        have e1 : x.text.getD [] = [] := by rcases ht with e | e <;> rw [e] <;> rfl
        have e2 : Dict.get? (inputAttribs x.attrib) c!"include" = none := by
          rw [hoa _ (by decide) (by decide)]
          have : Dict.get? x.attrib c!"include" = none := by
            apply (Dict.get?_eq_none_iff _ _).2
            intro hm
            have := hk _ hm
            revert this; decide
          rw [this]; rfl
        simp only [Option.map_none, Option.getD_none, Option.getD_some, e1, e2, and_self, if_true, pure_ok])
      (fun v => hG v hg)
      (one _ _ hu (by decide) (by decide)) (one _ _ he (by decide) (by decide)) (one _ _ hf (by decide) (by decide))
      ⟨q.name, c!"python", [], [], [], [], [], .dict []⟩ rfl (by simp only; decide)
    refine fin s' h2 h3 h4 (by rw [h5, hhg]; rfl) ?_ ?_ ?_ q.name hn ?_
    · rw [h6, hho _ (by decide) (by decide), hu]; cases Dict.get? x.attrib c!"url" <;> simp
    · rw [h7, hho _ (by decide) (by decide), he]; cases Dict.get? x.attrib c!"extensions" <;> simp
    · rw [h8, hho _ (by decide) (by decide), hf]; cases Dict.get? x.attrib c!"filters" <;> simp
    · have e : inputFuel = 999 + 1 := rfl
      rw [e, inAttrs, h1]
  | loaded l s f d hk hw hn hg ht hs0 hl hl2 hlf hfd hdw hdk hu he hf =>
    have TA : ∀ k ss, TextsAt d k ss → (∀ v, Dict.get? d k = some v → textList v = .ok ss) ∧ (Dict.get? d k = none → ss = []) := by
      intro k ss h
      unfold TextsAt at h
      constructor
      · intro v hv; rw [hv] at h; exact textList_of h
      · intro hv; rw [hv] at h; exact h
    have inner : ∀ s0 : InSt, s0.load ≠ c!"text" → ∃ s', inAttrs C gs 999 (some []) d s0 = .ok s' ∧ s'.name = s0.name ∧ s'.functions = s0.functions ∧
        s'.load ≠ c!"text" ∧ s'.groups = s0.groups ∧ s'.urls = (if Dict.has d c!"url" then q.urls else s0.urls) ∧
        s'.extensions = (if Dict.has d c!"extensions" then q.exts else s0.extensions) ∧
        s'.filters = (if Dict.has d c!"filters" then q.filters else s0.filters) := by
      intro s0 h0
      have no : ∀ k, k ∉ [c!"url", c!"extensions", c!"filters"] → Dict.get? d k = none := by
        intro k hk'
        apply (Dict.get?_eq_none_iff _ _).2
        intro hm; exact hk' (hdk k hm)
      have noh : ∀ k, k ∉ [c!"url", c!"extensions", c!"filters"] → Dict.has d k = false := by
        intro k hk'; unfold Dict.has; rw [no k hk']; rfl
      have step : LoadStep (fun s => { s with load := [] }) false false false q.urls q.exts q.filters :=
        ⟨fun _ => rfl, fun _ => rfl, fun _ => rfl, fun _ => by simp only; decide, fun _ => rfl, fun _ => rfl, fun _ => rfl⟩
      obtain ⟨s', h1, h2, h3, h4, h5, h6, h7, h8⟩ := inAttrsWith_urls C gs (some []) d (fun d s => inAttrs C gs 998 (some []) d s)
        d hdw s0.name [] q.urls q.exts q.filters _ false false false step
        (by
          intro k hk'
          have := hdk k hk'
          simp only [List.mem_cons, List.not_mem_nil, or_false] at this ⊢
          rcases this with e | e | e <;> simp [e])
        (by intro v hv; rw [no _ (by decide)] at hv; exact absurd hv (by simp))
        (by intro v hv; rw [no _ (by decide)] at hv; exact absurd hv (by simp))
        (by intro v hv; rw [no _ (by decide)] at hv; exact absurd hv (by simp))
        (TA _ _ hu).1 (TA _ _ he).1 (TA _ _ hf).1 s0 rfl h0
      refine ⟨s', by rw [show (999 : Nat) = 998 + 1 from rfl, inAttrs]; exact h1, h2, h3, h4, ?_, ?_, ?_, ?_⟩
      · rw [h5, noh _ (by decide)]; rfl
      · rw [h6, noh c!"load" (by decide)]; simp
      · rw [h7, noh c!"load" (by decide)]; simp
      · rw [h8, noh c!"load" (by decide)]; simp
    have hstr : loadStruct C x.text (inputAttribs x.attrib) = .ok (.dict (d.map (fun kv => (.s kv.1, kv.2)))) := by
      unfold loadStruct
      rw [hla, hl, ht]
      simp only [Option.map_some, Option.getD_some, hs0, false_and, if_false, hlf, hfd]
    have noattr : ∀ k, k ∉ [c!"name", c!"load", c!"groups"] → Dict.has (inputAttribs x.attrib) k = false := by
      intro k hk'
      rw [hho k (by intro e; subst e; simp at hk') (by intro e; subst e; simp at hk')]
      have : Dict.get? x.attrib k = none := (Dict.get?_eq_none_iff _ _).2 (fun hm => hk' (hk k hm))
      rw [this]; rfl
    have noget : ∀ k, k ∉ [c!"name", c!"load", c!"groups"] → Dict.get? (inputAttribs x.attrib) k = none := by
      intro k hk'
      have := noattr k hk'
      unfold Dict.has at this
      cases hq : Dict.get? (inputAttribs x.attrib) k with
      | none => rfl
      | some v => rw [hq] at this; simp at this
    -- what reading `load` does
    let L : InSt → InSt := fun s => if d = [] then { s with load := strip l } else
      match inAttrs C gs 999 (some []) d { s with load := strip l, parameters := .dict (d.map (fun kv => (.s kv.1, kv.2))) } with
      | .ok s' => s'
      | .error _ => s
    have hLs : ∀ s, (d = [] ∧ L s = { s with load := strip l }) ∨ (d ≠ [] ∧
        inAttrs C gs 999 (some []) d { s with load := strip l, parameters := .dict (d.map (fun kv => (.s kv.1, kv.2))) } = .ok (L s)) := by
      intro s
      by_cases hd : d = []
      · left; exact ⟨hd, by simp only [L, if_pos hd]⟩
      · right
        refine ⟨hd, ?_⟩
        obtain ⟨s', h1, _⟩ := inner { s with load := strip l, parameters := .dict (d.map (fun kv => (.s kv.1, kv.2))) } hl2
        simp only [L, if_neg hd, h1]
    have hLf : ∀ s, (L s).name = s.name ∧ (L s).functions = s.functions ∧ (L s).load ≠ c!"text" ∧ (L s).groups = s.groups ∧
        (L s).urls = (if Dict.has d c!"url" then q.urls else s.urls) ∧ (L s).extensions = (if Dict.has d c!"extensions" then q.exts else s.extensions) ∧
        (L s).filters = (if Dict.has d c!"filters" then q.filters else s.filters) := by
      intro s
      rcases hLs s with ⟨hd, e⟩ | ⟨hd, e⟩
      · rw [e]; subst hd
        exact ⟨rfl, rfl, hl2, rfl, rfl, rfl, rfl⟩
      · obtain ⟨s', h1, h2⟩ := inner { s with load := strip l, parameters := .dict (d.map (fun kv => (.s kv.1, kv.2))) } hl2
        rw [h1, Except.ok.injEq] at e
        rw [← e]; exact h2
    have step : LoadStep L (Dict.has d c!"url") (Dict.has d c!"extensions") (Dict.has d c!"filters") q.urls q.exts q.filters :=
      ⟨fun s => (hLf s).1, fun s => (hLf s).2.2.2.1, fun s => (hLf s).2.1, fun s => (hLf s).2.2.1, fun s => (hLf s).2.2.2.2.1,
        fun s => (hLf s).2.2.2.2.2.1, fun s => (hLf s).2.2.2.2.2.2⟩
    obtain ⟨s', h1, h2, h3, h4, h5, h6, h7, h8⟩ := inAttrsWith_urls C gs x.text (inputAttribs x.attrib) (fun d s => inAttrs C gs 999 (some []) d s)
      (inputAttribs x.attrib) (Dict.WF_setdefault _ _ _ (Dict.WF_setdefault _ _ _ (hav hw))) q.name q.groups q.urls q.exts q.filters L _ _ _ step
      (by
        intro k hk'
        rcases hkin k hk' with e | e | e
        · subst e; decide
        · subst e; decide
        · have := hk k e
          simp only [List.mem_cons, List.not_mem_nil, or_false] at this ⊢
          rcases this with e | e | e <;> simp [e])
      (fun v => hN v hn)
      (by
        intro v hv
        rw [hla, hl] at hv
        simp only [Option.map_some, Option.getD_some, Option.some.injEq] at hv
        subst hv
        refine ⟨l, rfl, hl2, _, hstr, Or.inr ⟨_, rfl, ?_⟩⟩
        by_cases hd : d = []
        · left
          refine ⟨by rw [hd]; rfl, fun s => ?_⟩
          rcases hLs s with ⟨_, e⟩ | ⟨e, _⟩
          · exact e
          · exact absurd hd e
        · right
          refine ⟨by simpa using hd, fun s => ?_⟩
          rw [strKeys_map]
          rcases hLs s with ⟨e, _⟩ | ⟨_, e⟩
          · exact absurd e hd
          · exact e)
      (fun v => hG v hg)
      (by intro v hv; rw [noget _ (by decide)] at hv; exact absurd hv (by simp))
      (by intro v hv; rw [noget _ (by decide)] at hv; exact absurd hv (by simp))
      (by intro v hv; rw [noget _ (by decide)] at hv; exact absurd hv (by simp))
      ⟨q.name, c!"python", [], [], [], [], [], .dict []⟩ rfl (by simp only; decide)
    have last : ∀ k (ss : List Str), TextsAt d k ss → (if Dict.has d k then ss else []) = ss := by
      intro k ss hk'
      by_cases hh : Dict.has d k = true
      · rw [if_pos hh]
      · rw [if_neg hh]
        refine ((TA k ss hk').2 ?_).symm
        unfold Dict.has at hh
        simpa using hh
    refine fin s' h2 h3 h4 (by rw [h5, hhg]; rfl) ?_ ?_ ?_ q.name hn ?_
    · rw [h6, noattr _ (by decide), hhl]; exact last _ _ hu
    · rw [h7, noattr _ (by decide), hhl]; exact last _ _ he
    · rw [h8, noattr _ (by decide), hhl]; exact last _ _ hf
    · have e : inputFuel = 999 + 1 := rfl
      rw [e, inAttrs, h1]

theorem loadInputsFrom_urls (C : TplCtx) (gs : List TopGroup) (base : Str) (xs : List Xml) (qs : List UrlTag) (h : All2 (UrlInput C) xs qs)
    (hd : (qs.map (·.name)).Nodup) (ins0 ins : Dict Str TInput) (srcs : Dict Str InSt) (h0 : ∀ q ∈ qs, Dict.get? ins0 q.name = none)
    (hl : loadInputsFrom C gs base xs ins0 srcs = .ok ins) :
    (∀ q ∈ qs, ∃ data ps, loadUrls C base q.exts q.filters q.urls = .ok data ∧
      Dict.get? ins q.name = some ⟨data, inputGroups gs q.name q.groups, [], ps⟩) ∧
    (∀ n, n ∉ qs.map (·.name) → Dict.get? ins n = Dict.get? ins0 n) := by
  induction h generalizing ins0 srcs with
  | nil =>
    simp only [loadInputsFrom, pure_ok, Except.ok.injEq] at hl
    subst hl
    exact ⟨by simp, fun n _ => rfl⟩
  | cons h1 h2 ih =>
    rename_i x q xs qs
    rw [loadInputsFrom] at hl
    obtain ⟨r, hr, hl⟩ := (bind_ok_iff _ _ _).1 hl
    obtain ⟨data, ps, e1, e2⟩ := loadInput_url C gs base x q h1 r hr
    subst e2
    dsimp only at hl
    rw [putTag_new _ _ _ _ _ _ (h0 q (by simp)), ok_bind] at hl
    obtain ⟨hd1, hd2⟩ := List.nodup_cons.1 (show (q.name :: qs.map (·.name)).Nodup from hd)
    have hput : ∀ n, Dict.get? (putInput C.eng ins0 q.name ⟨data, inputGroups gs q.name q.groups, [], ps⟩) n =
        if q.name = n then some ⟨data, inputGroups gs q.name q.groups, [], ps⟩ else Dict.get? ins0 n := by
      intro n
      rw [putInput_get, h0 q (by simp)]
    obtain ⟨a1, a2⟩ := ih hd2 _ _ (by
      intro q' hq'
      rw [hput, if_neg]
      · exact h0 q' (by simp [hq'])
      · intro e; apply hd1; rw [e]; exact List.mem_map.2 ⟨q', hq', rfl⟩) hl
    constructor
    · intro q' hq'
      rcases List.mem_cons.1 hq' with e | hq'
      · subst e
        refine ⟨data, ps, e1, ?_⟩
        rw [a2 _ hd1, hput, if_pos rfl]
      · exact a1 q' hq'
    · intro n hn
      simp only [List.map_cons, List.mem_cons, not_or] at hn
      rw [a2 n hn.2, hput, if_neg (fun e => hn.1 e.symm)]

theorem loadInputs_urls (C : TplCtx) (gs : List TopGroup) (base : Str) (xs : List Xml) (qs : List UrlTag) (h : All2 (UrlInput C) xs qs)
    (hd : (qs.map (·.name)).Nodup) (ins0 ins : Dict Str TInput) (h0 : ∀ q ∈ qs, Dict.get? ins0 q.name = none)
    (hl : loadInputs C gs base xs ins0 = .ok ins) :
    (∀ q ∈ qs, ∃ data ps, loadUrls C base q.exts q.filters q.urls = .ok data ∧
      Dict.get? ins q.name = some ⟨data, inputGroups gs q.name q.groups, [], ps⟩) ∧
    (∀ n, n ∉ qs.map (·.name) → Dict.get? ins n = Dict.get? ins0 n) := 
  loadInputsFrom_urls C gs base xs qs h hd ins0 ins [] h0 hl

end Props
