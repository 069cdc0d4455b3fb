import Verif.Spec.Excel
import Verif.Props.Outputs
/-!
# C152: workbooks
-/

namespace Props
open Py Spec TTP OutFn

theorem fkey_eq : Format.keyVal = Spec.keyVal := by funext k; cases k <;> rfl

theorem asKey_iff (v : Val) (k : Key) : MatchFn.asKey v = .ok k ↔ v = Spec.keyVal k := by
  cases v <;> cases k <;> simp [MatchFn.asKey, Spec.keyVal, pure_ok, throw_err]

theorem headerKeys_iff (xs : List Val) (ks : List Key) : headerKeys xs = .ok ks ↔ xs = ks.map Spec.keyVal := by
  induction xs generalizing ks with
  | nil => cases ks <;> simp [headerKeys, pure_ok]
  | cons v vs ih =>
    simp only [headerKeys, bind_ok_iff, pure_ok, Except.ok.injEq]
    constructor
    · rintro ⟨k, h1, ks', h2, rfl⟩
      rw [asKey_iff] at h1
      rw [ih] at h2
      simp [h1, h2]
    · intro h
      cases ks with
      | nil => simp at h
      | cons k ks =>
        simp only [List.map_cons, List.cons.injEq] at h
        exact ⟨k, (asKey_iff _ _).2 h.1, ks, (ih _).2 h.2, rfl⟩

theorem tabHeaders_iff (o : Option Val) (ks : List Key) : tabHeaders (o.getD .none) = .ok ks ↔ TabHeaders o ks := by
  constructor
  · intro h
    cases o with
    | none => simp only [Option.getD_none, tabHeaders, optHeaders, pure_ok, Except.ok.injEq] at h; subst h; exact .nothing
    | some v =>
      cases v with
      | str s =>
        simp only [Option.getD_some, tabHeaders, pure_ok, Except.ok.injEq, commaList, List.map_map] at h
        subst h
        exact .text s
      | none => simp only [Option.getD_some, tabHeaders, optHeaders, pure_ok, Except.ok.injEq] at h; subst h; exact .none
      | list xs =>
        simp only [Option.getD_some, tabHeaders, optHeaders, headerKeys_iff] at h
        subst h
        exact .names ks
      | _ => simp [tabHeaders, optHeaders, throw_err] at h
  · intro h
    cases h with
    | nothing => rfl
    | none => rfl
    | text s => simp [tabHeaders, pure_ok, commaList]
    | names => simp [tabHeaders, optHeaders, headerKeys_iff]

theorem tabPath_iff (v : Val) (p : List Str) : tabPath v = .ok p ↔ ∃ s, v = .str s ∧ p = (splitC '.' s).map strip := by
  cases v <;> simp [tabPath, pure_ok, throw_err, Format.pathOf, split_char, eq_comm]

theorem reqStr_iff (v : Val) (s : Str) : MatchFn.reqStr v = .ok s ↔ v = .str s := by
  cases v <;> simp [MatchFn.reqStr, pure_ok, throw_err]

theorem tabName_iff (i : Nat) (d : Dict Key Val) (n : Str) : tabName i d = .ok n ↔
    Dict.get? d (.s c!"tab_name") = some (.str n) ∨ (Dict.get? d (.s c!"tab_name") = none ∧ n = c!"Sheet" ++ natStr i) := by
  unfold tabName
  cases h : Dict.get? d (.s c!"tab_name") with
  | none => simp [pure_ok, eq_comm]
  | some v => cases v <;> simp [pure_ok, throw_err, eq_comm]

/-- one tab -/
theorem tabOf_iff (data : Val) (i : Nat) (d : Dict Key Val) (r : Str × List (List Val)) :
    tabOf data i d = .ok r ↔ ∃ t, TabIs data i d t ∧ r = (t.title, t.headers.map Spec.keyVal :: t.rows) := by
  unfold tabOf tabOpts
  simp only [bind_ok_iff, pure_ok, Except.ok.injEq, fkey_eq, tabName_iff, tabHeaders_iff, tabPath_iff, reqStr_iff]
  constructor
  · rintro ⟨n, hn, o, ⟨hs, hh, p, ⟨s, hs1, hs2⟩, k, hk, rfl⟩, t, ht, rfl⟩
    exact ⟨⟨n, t.1, t.2⟩, ⟨hn, _, ht, ⟨s, hs1, hs2⟩, hh, rfl, hk, Iff.rfl⟩, rfl⟩
  · rintro ⟨t, ⟨hn, o, ht, ⟨s, hs1, hs2⟩, hh, hm, hk, hst⟩, rfl⟩
    refine ⟨t.title, hn, o, ⟨o.headers, hh, o.path, ⟨s, hs1, hs2⟩, o.key, hk, ?_⟩, _, ht, rfl⟩
    rw [← hm]
    cases o with
    | mk a b c st e =>
      have : ((Dict.get? d (.s c!"strict")).getD (.bool true)).truthy = st := by
        rw [Bool.eq_iff_iff]; exact hst.symm
      rw [this]

/-- all tabs -/
theorem tabsOf_iff (data : Val) (i : Nat) (ds : List Val) (r : List (Str × List (List Val))) :
    tabsOf data i ds = .ok r ↔ ∃ ts, TabsAre data i ds ts ∧ r = ts.map (fun t => (t.title, t.headers.map Spec.keyVal :: t.rows)) := by
  induction ds generalizing i r with
  | nil =>
    simp only [tabsOf, pure_ok, Except.ok.injEq]
    constructor
    · rintro rfl; exact ⟨[], .nil i, rfl⟩
    · rintro ⟨ts, h, rfl⟩; cases h; rfl
  | cons d ds ih =>
    cases d with
    | dict d =>
      simp only [tabsOf, bind_ok_iff, pure_ok, Except.ok.injEq, tabOf_iff, ih]
      constructor
      · rintro ⟨_, ⟨t, h1, rfl⟩, _, ⟨ts, h2, rfl⟩, rfl⟩
        exact ⟨t :: ts, .cons h1 h2, rfl⟩
      · rintro ⟨ts, h, rfl⟩
        cases h with
        | cons h1 h2 => exact ⟨_, ⟨_, h1, rfl⟩, _, ⟨_, h2, rfl⟩, rfl⟩
    | _ =>
      simp only [tabsOf, throw_err, reduceCtorEq, false_iff, not_exists, not_and]
      intro ts h
      cases h

/-! ## Workbooks -/

theorem checkRows_ok (rows : List (List Val)) (h : ∀ r ∈ rows, ∀ c ∈ r, SimpleCell c) : checkRows rows = .ok () := by
  unfold checkRows
  rw [if_pos]
  · rfl
  · rw [List.all_eq_true]
    intro r hr
    rw [List.all_eq_true]
    intro c hc
    have := h r hr c hc
    cases c <;> simp [SimpleCell] at this <;> rfl

theorem appendTo_titles (n : Str) (rows : List (List Val)) (b : Book) : (appendTo n rows b).map Prod.fst = b.map Prod.fst := by
  induction b with
  | nil => rfl
  | cons s b ih =>
    rw [appendTo]
    split <;> simp [ih]

theorem appendTo_mem (n : Str) (rows : List (List Val)) (b : Book) (hb : (b.map Prod.fst).Nodup) (s : Str × List (List Val)) (hs : s ∈ b) :
    (if s.1 = n then (s.1, s.2 ++ rows) else s) ∈ appendTo n rows b := by
  induction b with
  | nil => cases hs
  | cons x b ih =>
    simp only [List.map_cons, List.nodup_cons] at hb
    rw [appendTo]
    by_cases hx : x.1 = n
    · rw [if_pos hx]
      rcases List.mem_cons.1 hs with rfl | hm
      · rw [if_pos hx]; simp
      · have : s.1 ≠ n := by
          intro e
          exact hb.1 (by rw [hx, ← e]; exact List.mem_map_of_mem hm)
        rw [if_neg this]
        exact List.mem_cons_of_mem _ hm
    · rw [if_neg hx]
      rcases List.mem_cons.1 hs with rfl | hm
      · rw [if_neg hx]; simp
      · exact List.mem_cons_of_mem _ (ih hb.2 hm)

theorem putTabs_with (title : List Str → Str → PyM Str) (hT : ∀ taken n, n ∉ taken → title taken n = .ok n) (update : Bool) (ts : List XTab)
    (hn : (ts.map XTab.title).Nodup) (hc : ∀ t ∈ ts, ∀ r ∈ t.rows, ∀ c ∈ r, SimpleCell c) (old : Book) (ho : (old.map Prod.fst).Nodup)
    (hu : update = false → ∀ t ∈ ts, t.title ∉ old.map Prod.fst) :
    ∃ new, putTabs title update (ts.map (fun t => (t.title, t.headers.map Spec.keyVal :: t.rows))) old = .ok new ∧ BookWith old ts new := by
  induction ts generalizing old with
  | nil => exact ⟨old, rfl, ⟨by simp, fun s hs _ => hs, fun s _ t ht => absurd ht (by simp), fun t ht => absurd ht (by simp)⟩⟩
  | cons t ts ih =>
    simp only [List.map_cons, List.nodup_cons] at hn
    have hcell := hc t (List.mem_cons_self ..)
    have hhead : ∀ c ∈ t.headers.map Spec.keyVal, SimpleCell c := by
      intro c hc
      obtain ⟨k, _, rfl⟩ := List.mem_map.1 hc
      cases k <;> trivial
    by_cases hin : t.title ∈ old.map Prod.fst
    · have hup : update = true := by
        cases update with
        | true => rfl
        | false => exact absurd hin (hu rfl t (List.mem_cons_self ..))
      obtain ⟨new, h1, h2⟩ := ih hn.2 (fun t' ht' => hc t' (List.mem_cons_of_mem _ ht')) (appendTo t.title t.rows old) (by rw [appendTo_titles]; exact ho)
        (by intro e; rw [hup] at e; cases e)
      refine ⟨new, ?_, ?_, ?_, ?_, ?_⟩
      · rw [List.map_cons, putTabs, putTab, hup]
        simp only [List.contains_iff_mem, hin, Bool.and_true, if_true, List.tail_cons, checkRows_ok _ hcell, ok_bind, pure_ok, decide_true]
        rw [← hup]; exact h1
      · rw [h2.titles, appendTo_titles, List.map_cons, List.filter_cons, if_neg (by simpa using hin)]
      · intro s hs hm
        simp only [List.map_cons, List.mem_cons, not_or] at hm
        have := appendTo_mem t.title t.rows old ho s hs
        rw [if_neg hm.1] at this
        exact h2.kept s this hm.2
      · intro s hs t' ht' e
        have hmem := appendTo_mem t.title t.rows old ho s hs
        rcases List.mem_cons.1 ht' with rfl | hm
        · rw [if_pos e.symm] at hmem
          exact h2.kept _ hmem (by rw [← e]; exact hn.1)
        · have hne : s.1 ≠ t.title := by
            intro e'
            exact hn.1 (by rw [← e', ← e]; exact List.mem_map_of_mem hm)
          rw [if_neg hne] at hmem
          exact h2.below s hmem t' hm e
      · intro t' ht' hni
        rcases List.mem_cons.1 ht' with rfl | hm
        · exact absurd hin hni
        · exact h2.added t' hm (by rw [appendTo_titles]; exact hni)
    · have htit : (old ++ [(t.title, t.headers.map Spec.keyVal :: t.rows)]).map Prod.fst = old.map Prod.fst ++ [t.title] := by simp
      obtain ⟨new, h1, h2⟩ := ih hn.2 (fun t' ht' => hc t' (List.mem_cons_of_mem _ ht')) (old ++ [(t.title, t.headers.map Spec.keyVal :: t.rows)])
        (by
          rw [htit, List.nodup_append]
          exact ⟨ho, by simp, by intro a ha b hb e; simp at hb; subst hb; subst e; exact hin ha⟩)
        (by
          intro e t' ht'
          rw [htit, List.mem_append, not_or]
          refine ⟨hu e t' (List.mem_cons_of_mem _ ht'), ?_⟩
          intro h
          simp only [List.mem_singleton] at h
          exact hn.1 (by rw [← h]; exact List.mem_map_of_mem ht'))
      have hmem : (t.title, t.headers.map Spec.keyVal :: t.rows) ∈ old ++ [(t.title, t.headers.map Spec.keyVal :: t.rows)] := by simp
      refine ⟨new, ?_, ?_, ?_, ?_, ?_⟩
      · rw [List.map_cons, putTabs, putTab]
        have hcn : (old.map Prod.fst).contains t.title = false := by
          rw [← Bool.not_eq_true, List.contains_iff_mem]; exact hin
        simp only [hcn, Bool.false_and, Bool.false_eq_true, if_false, hT _ _ hin, ok_bind, pure_ok]
        rw [checkRows_ok (t.headers.map Spec.keyVal :: t.rows) (by
          intro r hr
          rcases List.mem_cons.1 hr with rfl | hr
          · exact hhead
          · exact hcell r hr)]
        exact h1
      · rw [h2.titles, htit, List.map_cons, List.filter_cons, if_pos (by simpa using hin), List.append_assoc, List.singleton_append]
        congr 2
        apply List.filter_congr
        intro n hm
        have : n ≠ t.title := by intro e; exact hn.1 (by rw [← e]; exact hm)
        simp [this]
      · intro s hs hm
        simp only [List.map_cons, List.mem_cons, not_or] at hm
        exact h2.kept s (List.mem_append_left _ hs) hm.2
      · intro s hs t' ht' e
        rcases List.mem_cons.1 ht' with rfl | hm
        · exact absurd (by rw [e]; exact List.mem_map_of_mem hs) hin
        · exact h2.below s (List.mem_append_left _ hs) t' hm e
      · intro t' ht' hni
        rcases List.mem_cons.1 ht' with rfl | hm
        · exact h2.kept _ hmem hn.1
        · refine h2.added t' hm ?_
          rw [htit, List.mem_append, not_or]
          refine ⟨hni, ?_⟩
          intro h
          simp only [List.mem_singleton] at h
          exact hn.1 (by rw [← h]; exact List.mem_map_of_mem hm)

/-! ## File names -/

theorem endsWith_iff (s p : Str) : endsWith s p = true ↔ p <:+ s := by unfold endsWith; exact List.isSuffixOf_iff_suffix

theorem xlsx_join (url f : Str) (hf : f ≠ []) : c!".xlsx" <:+ osJoin url f ↔ c!".xlsx" <:+ f := by
  unfold osJoin
  split
  · exact Iff.rfl
  · have key : ∀ a : Str, (a = [] ∨ ∃ b, a = b ++ c!"/") → (c!".xlsx" <:+ a ++ f ↔ c!".xlsx" <:+ f) := by
      intro a ha
      constructor
      · intro h
        rcases ha with rfl | ⟨b, rfl⟩
        · exact h
        · rcases List.suffix_or_suffix_of_suffix h (List.suffix_append (b ++ c!"/") f) with h' | h'
          · exact h'
          · obtain ⟨q, hq⟩ := h'
            cases q with
            | nil => simp only [List.nil_append] at hq; rw [hq]; exact List.suffix_refl _
            | cons c q =>
              exfalso
              obtain ⟨p, hp⟩ := h
              rw [← hq, ← List.append_assoc] at hp
              have e := List.append_cancel_right hp
              have hl : '/' ∈ c :: q := by
                have : (p ++ c :: q).getLast? = (b ++ c!"/").getLast? := by rw [e]
                simp only [List.getLast?_append, List.getLast?_singleton, Option.or_some] at this
                cases hg : (c :: q).getLast? with
                | none => simp at hg
                | some z =>
                  rw [hg] at this
                  simp only [Option.some_or, Option.some.injEq] at this
                  rw [← this]
                  exact List.mem_of_getLast? hg
              have : '/' ∈ c!".xlsx" := by rw [← hq]; exact List.mem_append_left _ hl
              revert this; decide
      · intro h; exact h.trans (List.suffix_append a f)
    by_cases hu : url = [] ∨ endsWith url c!"/" = true
    · rw [if_pos hu]
      apply key
      rcases hu with h | h
      · exact Or.inl h
      · rw [endsWith_iff] at h
        obtain ⟨b, hb⟩ := h
        exact Or.inr ⟨b, hb.symm⟩
    · rw [if_neg hu]
      have := key (url ++ c!"/") (Or.inr ⟨url, rfl⟩)
      simpa using this

theorem join_append (url f x : Str) (hf : f ≠ []) : osJoin url (f ++ x) = osJoin url f ++ x := by
  unfold osJoin
  have : startsWith (f ++ x) c!"/" = startsWith f c!"/" := by
    cases f with
    | nil => exact absurd rfl hf
    | cons c f => simp [startsWith, List.isPrefixOf]
  rw [this]
  split
  · rfl
  · split <;> simp

/-- the path where the workbook is looked for -/
theorem bookName_iff (o : Option Val) (n : Str) : bookName o = .ok n ↔ ∃ f, o = some (.str f) ∧ n = withXlsx f := by
  unfold bookName withXlsx
  cases o with
  | none => simp [throw_err]
  | some v =>
    cases v with
    | str f =>
      simp only [pure_ok, Except.ok.injEq, Option.some.injEq, Val.str.injEq, endsWith_iff]
      constructor
      · rintro rfl; exact ⟨f, rfl, rfl⟩
      · rintro ⟨g, rfl, rfl⟩; rfl
    | _ => simp [throw_err]

theorem withXlsx_join (url f : Str) (hf : f ≠ []) : withXlsx (osJoin url f) = osJoin url (withXlsx f) := by
  unfold withXlsx
  by_cases h : c!".xlsx" <:+ f
  · rw [if_pos h, if_pos ((xlsx_join url f hf).2 h)]
  · rw [if_neg h, if_neg (fun h' => h ((xlsx_join url f hf).1 h')), join_append url f _ hf]

/-- where the workbook is saved: the file name filled in, with the extension -/
theorem savePath_eq (W : OutWorld) (t : OutTag) (f url : Str) (hf : Dict.get? t.attrs c!"filename" = some (.str f)) (hne : f ≠ [])
    (hu : (Dict.get? t.attrs c!"url").getD (.str c!"./Output/") = .str url) : savePath W t = .ok (withXlsx (osJoin url (fillName W f))) := by
  have ht : (Val.str f).truthy = true := by
    cases f with
    | nil => exact absurd rfl hne
    | cons c s => rfl
  have hn : fileName W t = .ok (fillName W f) := by
    unfold fileName
    simp only [hf, nameGiven, pure_ok, ok_bind, Option.getD_some, ht, if_true]
  unfold savePath
  rw [hu, hn]
  simp only [MatchFn.reqStr, pure_ok, ok_bind, withXlsx, endsWith_iff]

theorem fillName_parts (W : OutWorld) (ps : List FPart) (hp : ∀ n, FPart.value n ∈ ps → PlainName n) (hv : Dict.WF W.vars) :
    (∀ name, FilledIn (fun n => (Dict.get? W.vars n).or (Dict.get? W.gvars n)) ps name → fillName W (fmtSource ps) = name) ∧
    ((∃ n, FPart.value n ∈ ps ∧ Dict.get? W.vars n = none ∧ Dict.get? W.gvars n = none) → fillName W (fmtSource ps) = fmtSource ps) := by
  have hg : ∀ n, Dict.get? (Dict.update W.gvars W.vars) n = (Dict.get? W.vars n).or (Dict.get? W.gvars n) := Dict.get?_update _ _ hv
  have hn := Fmt.format_names W.fmt [] (Dict.update W.gvars W.vars) ps hp .unknown
  constructor
  · intro name hname
    have := hn.1 name (filled_congr _ _ ps name (fun n _ => (hg n).symm) hname)
    unfold fillName Fmt.format
    rw [this]
  · rintro ⟨n, h1, h2, h3⟩
    have := hn.2 ⟨n, h1, by rw [hg, h2, h3]; rfl⟩
    unfold fillName Fmt.format
    rw [this]

/-! ## The output -/

theorem excel_run (W : OutWorld) (title : List Str → Str → PyM Str) (hT : ∀ taken n, n ∉ taken → title taken n = .ok n) (files : Books)
    (t : OutTag) (data : Val) (ds : List Val) (ts : List XTab) (f url : Str) (hne : f ≠ [])
    (htable : Dict.get? t.attrs c!"table" = some (.list ds)) (hf : Dict.get? t.attrs c!"filename" = some (.str f))
    (hu : (Dict.get? t.attrs c!"url").getD (.str c!"./Output/") = .str url)
    (htabs : TabsAre data 0 ds ts) (hn : (ts.map XTab.title).Nodup) (hc : ∀ t ∈ ts, ∀ r ∈ t.rows, ∀ c ∈ r, SimpleCell c)
    (old : Book) (hold : old = if updates t.attrs then (files (osJoin url (withXlsx f))).getD [] else []) (ho : (old.map Prod.fst).Nodup) :
    ∃ new, BookWith old ts new ∧ runExcel W title files t data =
      .ok ({ t with attrs := Dict.set t.attrs c!"table" (.list (ds.map unnamed)) },
        fun p => if p = withXlsx (osJoin url (fillName W f)) then some new else files p) := by
  obtain ⟨new, h1, h2⟩ := putTabs_with title hT (updates t.attrs) ts hn hc old ho (by
    intro e t' _
    rw [hold, e]
    simp)
  refine ⟨new, h2, ?_⟩
  have hex : excel title files t data = .ok ({ t with attrs := Dict.set t.attrs c!"table" (.list (ds.map unnamed)) }, new) := by
    unfold excel
    rw [htable, hf, hu, (bookName_iff _ _).2 ⟨f, rfl, rfl⟩]
    simp only [tableArg, MatchFn.reqStr, pure_ok, ok_bind, (tabsOf_iff data 0 ds _).2 ⟨ts, htabs, rfl⟩]
    unfold oldBook
    rw [← hold, h1]
    rfl
  unfold runExcel
  rw [hex]
  simp only [ok_bind]
  rw [savePath_eq W _ f url (by
      show Dict.get? (Dict.set _ _ _) _ = _
      rw [Dict.get?_set_ne _ _ (by decide)]; exact hf) hne (by
      show (Dict.get? (Dict.set _ _ _) _).getD _ = _
      rw [Dict.get?_set_ne _ _ (by decide)]; exact hu)]
  rfl

/-- C152. An output with format `excel` and returner `file`, whose file name has no braces: one workbook is written, at the file name with the
extension in the directory, and no other. With `update` it is the workbook that was there with the tabs added (`BookWith`), else - or if
there was none - it has exactly the tabs, in order. (Titles of tabs are different and can be titles of sheets, cells are no lists or
dictionaries.) -/
theorem C152_excel (W : OutWorld) (hv : Dict.WF W.vars) (title : List Str → Str → PyM Str) (hT : ∀ taken n, n ∉ taken → title taken n = .ok n)
    (files : Books) (t : OutTag) (data : Val) (ds : List Val) (ts : List XTab) (f url : Str) (hne : f ≠ []) (hb : '{' ∉ f ∧ '}' ∉ f)
    (htable : Dict.get? t.attrs c!"table" = some (.list ds)) (hf : Dict.get? t.attrs c!"filename" = some (.str f))
    (hu : (Dict.get? t.attrs c!"url").getD (.str c!"./Output/") = .str url)
    (htabs : TabsAre data 0 ds ts) (hn : (ts.map XTab.title).Nodup) (hc : ∀ t ∈ ts, ∀ r ∈ t.rows, ∀ c ∈ r, SimpleCell c)
    (hold : ∀ b, files (osJoin url (withXlsx f)) = some b → (b.map Prod.fst).Nodup) :
    ∃ t' files' new, runExcel W title files t data = .ok (t', files') ∧ files' (osJoin url (withXlsx f)) = some new ∧
      (∀ p, p ≠ osJoin url (withXlsx f) → files' p = files p) ∧
      (((Dict.get? t.attrs c!"update").getD .none).truthy = true → BookWith ((files (osJoin url (withXlsx f))).getD []) ts new) ∧
      (((Dict.get? t.attrs c!"update").getD .none).truthy = false → BookWith [] ts new) := by
  have hfill : fillName W f = f := by
    have h := (fillName_parts W [.text f] (by intro n h; simp at h) hv).1 f (by
      have := FilledIn.text (val := fun n => (Dict.get? W.vars n).or (Dict.get? W.gvars n)) (s := f) .nil
      simpa using this)
    have e : fmtSource [.text f] = f := by
      simp only [fmtSource, List.flatMap_cons, List.flatMap_nil, List.append_nil, FPart.source]
      have : ∀ s : Str, '{' ∉ s → '}' ∉ s → s.flatMap (fun c => if c = '{' ∨ c = '}' then [c, c] else [c]) = s := by
        intro s h1 h2
        induction s with
        | nil => rfl
        | cons c s ih =>
          simp only [List.mem_cons, not_or] at h1 h2
          rw [List.flatMap_cons, if_neg (fun h => h.elim (fun h => h1.1 h.symm) (fun h => h2.1 h.symm)), ih h1.2 h2.2]
          rfl
      exact this f hb.1 hb.2
    rw [e] at h
    exact h
  have hnd : ((if updates t.attrs then (files (osJoin url (withXlsx f))).getD [] else []).map Prod.fst).Nodup := by
    split
    · cases h : files (osJoin url (withXlsx f)) with
      | none => simp
      | some b => exact hold b h
    · simp
  obtain ⟨new, h1, h2⟩ := excel_run W title hT files t data ds ts f url hne htable hf hu htabs hn hc _ rfl hnd
  rw [hfill, withXlsx_join url f hne] at h2
  refine ⟨_, _, new, h2, if_pos rfl, fun p hp => if_neg hp, ?_, ?_⟩
  · intro e
    rw [show updates t.attrs = true from e, if_pos rfl] at h1
    exact h1
  · intro e
    rw [show updates t.attrs = false from e] at h1
    simpa using h1

/-- C152: `BookWith` without old sheets says everything: the tabs in order, with headers and rows. -/
theorem C152_new_book (ts : List XTab) (hn : (ts.map XTab.title).Nodup) (new : Book) :
    BookWith [] ts new ↔ new = ts.map (fun t => (t.title, t.headers.map Spec.keyVal :: t.rows)) := by
  constructor
  · intro h
    have ht := h.titles
    rw [List.map_nil, List.nil_append, List.filter_eq_self.2 (by simp)] at ht
    have hadd : ∀ t ∈ ts, (t.title, t.headers.map Spec.keyVal :: t.rows) ∈ new := fun t hm => h.added t hm (by simp)
    clear h
    induction ts generalizing new with
    | nil => simpa using ht
    | cons t ts ih =>
      cases new with
      | nil => simp at ht
      | cons s new =>
        simp only [List.map_cons, List.cons.injEq] at ht
        simp only [List.map_cons, List.nodup_cons] at hn
        have hs : s = (t.title, t.headers.map Spec.keyVal :: t.rows) := by
          rcases List.mem_cons.1 (hadd t (List.mem_cons_self ..)) with e | e
          · exact e.symm
          · exact absurd (by rw [← ht.2]; exact List.mem_map_of_mem (f := Prod.fst) e) hn.1
        rw [List.map_cons, ← hs, ih hn.2 new ht.2]
        intro t' hm
        rcases List.mem_cons.1 (hadd t' (List.mem_cons_of_mem _ hm)) with e | e
        · rw [hs] at e
          simp only [Prod.mk.injEq] at e
          exact absurd (by rw [← e.1]; exact List.mem_map_of_mem hm) hn.1
        · exact e
  · rintro rfl
    refine ⟨by rw [List.map_nil, List.nil_append, List.filter_eq_self.2 (by simp), List.map_map]; rfl, fun s hs => by simp at hs, fun s hs => by simp at hs, fun t hm _ => List.mem_map.2 ⟨t, hm, rfl⟩⟩

/-- C152, what does not hold: titles are taken out of the descriptions of the tabs when the output runs. If it runs again - a second `parse` of
the object - the tabs are `Sheet0`, `Sheet1`, ... -/
theorem C152_titles_once (W : OutWorld) (title : List Str → Str → PyM Str) (files files' : Books) (t t' : OutTag) (data : Val) (ds : List Val)
    (hd : ∀ d, Val.dict d ∈ ds → Dict.WF d)
    (htable : Dict.get? t.attrs c!"table" = some (.list ds)) (h : runExcel W title files t data = .ok (t', files')) :
    ∃ ds', Dict.get? t'.attrs c!"table" = some (.list ds') ∧ ∀ data' ts, TabsAre data' 0 ds' ts →
      ts.map XTab.title = (List.range ds.length).map (fun i => c!"Sheet" ++ natStr i) := by
  unfold runExcel excel at h
  rw [htable] at h
  simp only [tableArg, bind_ok_iff, pure_ok, Except.ok.injEq, ok_bind] at h
  obtain ⟨r, ⟨n, _, url, _, tabs, _, b, _, rfl⟩, path, _, h⟩ := h
  simp only [Prod.mk.injEq] at h
  obtain ⟨rfl, _⟩ := h
  refine ⟨ds.map unnamed, Dict.get?_set_self _ _ _, ?_⟩
  intro data' ts hts
  have key : ∀ (ds : List Val) (i : Nat) (ts : List XTab), (∀ d, Val.dict d ∈ ds → Dict.WF d) → TabsAre data' i (ds.map unnamed) ts →
      ts.map XTab.title = (List.range' i ds.length).map (fun i => c!"Sheet" ++ natStr i) := by
    intro ds
    induction ds with
    | nil => intro i ts _ h; cases h; rfl
    | cons d ds ih =>
      intro i ts hd h
      rw [List.map_cons] at h
      generalize he : unnamed d = x at h
      cases h with
      | cons h1 h2 =>
        rename_i d' t' ts'
        rw [List.map_cons, ih _ _ (fun d hm => hd d (List.mem_cons_of_mem _ hm)) h2, List.length_cons, List.range'_succ, List.map_cons]
        congr 1
        cases d with
        | dict d =>
          simp only [unnamed, Val.dict.injEq] at he
          subst he
          have hw := hd d (List.mem_cons_self ..)
          have hnone : Dict.get? (Dict.erase d (.s c!"tab_name")) (.s c!"tab_name") = none := by
            rw [Dict.get?_erase d _ hw]; simp
          rcases h1.title with e | ⟨_, e⟩
          · rw [hnone] at e; cases e
          · exact e
        | _ => simp [unnamed] at he
  rw [key ds 0 ts hd hts, List.range_eq_range']

/-- C152, what does not hold: if the file name has variables, the workbook to update is looked for under the name as it is written, and saved under
the name with the variables filled in: whatever was in that workbook is lost, in spite of `update`. -/
theorem C152_update_loses (W : OutWorld) (hv : Dict.WF W.vars) (title : List Str → Str → PyM Str) (hT : ∀ taken n, n ∉ taken → title taken n = .ok n)
    (files : Books) (t : OutTag) (data : Val) (ds : List Val) (ts : List XTab) (ps : List FPart) (hp : ∀ n, FPart.value n ∈ ps → PlainName n)
    (hne : fmtSource ps ≠ []) (name url : Str) (hname : FilledIn (fun n => (Dict.get? W.vars n).or (Dict.get? W.gvars n)) ps name)
    (htable : Dict.get? t.attrs c!"table" = some (.list ds)) (hf : Dict.get? t.attrs c!"filename" = some (.str (fmtSource ps)))
    (hu : (Dict.get? t.attrs c!"url").getD (.str c!"./Output/") = .str url)
    (htabs : TabsAre data 0 ds ts) (hn : (ts.map XTab.title).Nodup) (hc : ∀ t ∈ ts, ∀ r ∈ t.rows, ∀ c ∈ r, SimpleCell c)
    (hraw : files (osJoin url (withXlsx (fmtSource ps))) = none) :
    ∃ t' files', runExcel W title files t data = .ok (t', files') ∧
      files' (withXlsx (osJoin url name)) = some (ts.map (fun t => (t.title, t.headers.map Spec.keyVal :: t.rows))) := by
  have hold : (if updates t.attrs then (files (osJoin url (withXlsx (fmtSource ps)))).getD [] else []) = ([] : Book) := by
    rw [hraw]; simp
  obtain ⟨new, h1, h2⟩ := excel_run W title hT files t data ds ts (fmtSource ps) url hne htable hf hu htabs hn hc [] hold.symm (by simp)
  rw [(fillName_parts W ps hp hv).1 name hname] at h2
  refine ⟨_, _, h2, ?_⟩
  rw [if_pos rfl, (C152_new_book ts hn new).1 h1]

/-- C152, what does not hold: a tab without `path` is not the table of all results; the path is one empty name, and that is not found. -/
theorem C152_no_path (title : List Str → Str → PyM Str) (files : Books) (t : OutTag) (d r : Dict Key Val) (rs : List Val) (n f url : Str)
    (htable : Dict.get? t.attrs c!"table" = some (.list [.dict d])) (hf : Dict.get? t.attrs c!"filename" = some (.str f))
    (hu : (Dict.get? t.attrs c!"url").getD (.str c!"./Output/") = .str url)
    (hname : Dict.get? d (.s c!"tab_name") = some (.str n)) (hpath : Dict.get? d (.s c!"path") = none) (hstrict : Dict.get? d (.s c!"strict") = none)
    (hkey : Dict.get? d (.s c!"key") = none) (hh : Dict.get? d (.s c!"headers") = none) (hr : Dict.get? r (.s []) = none) :
    excel title files t (.list (.dict r :: rs)) = .error .keyError := by
  have h1 : tabsOf (.list (.dict r :: rs)) 0 [.dict d] = .error .keyError := by
    simp only [tabsOf, tabOf, tabName, hname, tabOpts, hh, hpath, hkey, hstrict, Option.getD_none, tabHeaders, optHeaders, tabPath, MatchFn.reqStr,
      pure_ok, ok_bind, Val.truthy]
    have : Format.pathOf [] = [[]] := by decide
    simp only [this, Format.table, Format.sourceData, Format.dataToTable, Format.traverse, Format.travPath, hr, if_true, throw_err, err_bind]
  unfold excel
  rw [htable, hf, hu, (bookName_iff _ _).2 ⟨f, rfl, rfl⟩]
  simp only [tableArg, MatchFn.reqStr, pure_ok, ok_bind, h1, err_bind]

/-- C152: without `table` the program ends; without `filename` an `AttributeError` is raised. -/
theorem C152_required (title : List Str → Str → PyM Str) (files : Books) (t : OutTag) (data : Val) :
    (Dict.get? t.attrs c!"table" = none → excel title files t data = .error .systemExit) ∧
    (∀ ds, Dict.get? t.attrs c!"table" = some (.list ds) → Dict.get? t.attrs c!"filename" = none → excel title files t data = .error .attributeError) := by
  constructor
  · intro h
    unfold excel
    rw [h]
    rfl
  · intro ds h1 h2
    unfold excel
    rw [h1, h2]
    rfl

/-- C152. A cell that is a list or a dictionary makes the formatter fail: if it does not, all cells of the tables are simple. -/
theorem C152_cells (title : List Str → Str → PyM Str) (files : Books) (t : OutTag) (data : Val) (ds : List Val) (ts : List XTab)
    (htable : Dict.get? t.attrs c!"table" = some (.list ds)) (htabs : TabsAre data 0 ds ts) (r : OutTag × Book)
    (h : excel title files t data = .ok r) : ∀ t ∈ ts, ∀ r ∈ t.rows, ∀ c ∈ r, SimpleCell c := by
  unfold excel at h
  rw [htable] at h
  simp only [tableArg, bind_ok_iff, pure_ok, Except.ok.injEq, ok_bind] at h
  obtain ⟨n, _, url, _, tabs, h1, b, h2, _⟩ := h
  rw [(tabsOf_iff data 0 ds _).2 ⟨ts, htabs, rfl⟩] at h1
  injection h1 with h1
  subst h1
  have hrows : ∀ rows, checkRows rows = .ok () → ∀ r ∈ rows, ∀ c ∈ r, SimpleCell c := by
    intro rows h r hr c hc
    unfold checkRows at h
    split at h
    · rename_i hall
      have := List.all_eq_true.1 (List.all_eq_true.1 hall r hr) c hc
      cases c <;> first | trivial | cases this
    · cases h
  clear htabs htable
  generalize oldBook _ _ _ = b0 at h2
  induction ts generalizing b0 with
  | nil => intro t ht; cases ht
  | cons t ts ih =>
    rw [List.map_cons, putTabs] at h2
    obtain ⟨b1, h3, h4⟩ := (bind_ok_iff _ _ _).1 h2
    intro t' ht'
    rcases List.mem_cons.1 ht' with rfl | ht'
    · unfold putTab at h3
      split at h3
      · obtain ⟨⟨⟩, h5, _⟩ := (bind_ok_iff _ _ _).1 h3
        exact hrows _ h5
      · obtain ⟨m, _, h3⟩ := (bind_ok_iff _ _ _).1 h3
        obtain ⟨⟨⟩, h5, _⟩ := (bind_ok_iff _ _ _).1 h3
        exact fun r hr => hrows _ h5 r (List.mem_cons_of_mem _ hr)
    · exact ih b1 h4 t' ht'

/-! ## Examples -/

namespace Ex

/-- every title is taken as it is -/
def xTitle : List Str → Str → PyM Str := fun _ n => .ok n
/-- results of one input -/
def xData (name ip : Str) : Val := .list [.dict [(.s c!"ints", .list [.dict [(.s c!"name", .str name), (.s c!"ip", .str ip)]])]]
/-- one tab -/
def xTabs : List Val := [.dict [(.s c!"tab_name", .str c!"ints"), (.s c!"path", .str c!"ints"), (.s c!"headers", .str c!"name, ip")], .dict [(.s c!"path", .str c!"ints")]]
/-- the output -/
def xOut (f : Str) : OutTag := outT [(c!"table", .list xTabs), (c!"filename", .str f), (c!"url", .str c!"/tmp"), (c!"update", .bool true)] [c!"file"]
/-- a workbook with one sheet -/
def xFiles : Books := fun p => if p = c!"/tmp/out.xlsx" ∨ p = c!"/tmp/r1.xlsx" then some [(c!"ints", [[.str c!"name", .str c!"ip"], [.str c!"Lo0", .str c!"1.1.1.1"]])] else none

theorem xTabs_are (name ip : Str) : TabsAre (xData name ip) 0 xTabs [⟨c!"ints", [.s c!"name", .s c!"ip"], [[.str name, .str ip]]⟩,
    ⟨c!"Sheet1", [.s c!"ip", .s c!"name"], [[.str ip, .str name]]⟩] := by
  refine .cons ⟨Or.inl rfl, ⟨[c!"ints"], .str [], [], true, [.s c!"name", .s c!"ip"]⟩, rfl, ⟨c!"ints", by decide, by decide⟩, .text c!"name, ip", rfl, rfl, by decide⟩
    (.cons ⟨Or.inr ⟨by decide, by rfl⟩, ⟨[c!"ints"], .str [], [], true, []⟩, rfl, ⟨c!"ints", by decide, by decide⟩, .nothing, rfl, rfl, by decide⟩ (.nil _))

end Ex

/-- the hypotheses of C152 are met -/
example : ∃ t' files' new, runExcel Ex.ow Ex.xTitle Ex.xFiles (Ex.xOut c!"out") (Ex.xData c!"Lo1" c!"2.2.2.2") = .ok (t', files') ∧
    files' c!"/tmp/out.xlsx" = some new ∧ BookWith [(c!"ints", [[.str c!"name", .str c!"ip"], [.str c!"Lo0", .str c!"1.1.1.1"]])]
      [⟨c!"ints", [.s c!"name", .s c!"ip"], [[.str c!"Lo1", .str c!"2.2.2.2"]]⟩, ⟨c!"Sheet1", [.s c!"ip", .s c!"name"], [[.str c!"2.2.2.2", .str c!"Lo1"]]⟩] new := by
  obtain ⟨t', files', new, h1, h2, _, h3, _⟩ := C152_excel Ex.ow (by unfold Dict.WF; decide) Ex.xTitle (fun _ _ _ => rfl) Ex.xFiles (Ex.xOut c!"out")
    (Ex.xData c!"Lo1" c!"2.2.2.2") Ex.xTabs _ c!"out" c!"/tmp" (by decide) (by decide) (by decide) (by decide) (by decide) (Ex.xTabs_are _ _) (by decide)
    (by
      intro t ht r hr c hc
      simp only [List.mem_cons, List.not_mem_nil, or_false] at ht
      rcases ht with rfl | rfl <;> (simp only [List.mem_cons, List.not_mem_nil, or_false] at hr; subst hr; simp only [List.mem_cons, List.not_mem_nil, or_false] at hc; rcases hc with rfl | rfl <;> trivial))
    (by
      intro b hb
      have : Ex.xFiles c!"/tmp/out.xlsx" = some b := hb
      simp only [Ex.xFiles, true_or, if_true, Option.some.injEq] at this
      subst this
      decide)
  exact ⟨t', files', new, h1, h2, h3 (by decide)⟩

/-- what happens: the row goes below the row that was there, and the other tab is added -/
example : (runExcel Ex.ow Ex.xTitle Ex.xFiles (Ex.xOut c!"out") (Ex.xData c!"Lo1" c!"2.2.2.2")).map (fun r => r.2 c!"/tmp/out.xlsx") =
    .ok (some [(c!"ints", [[.str c!"name", .str c!"ip"], [.str c!"Lo0", .str c!"1.1.1.1"], [.str c!"Lo1", .str c!"2.2.2.2"]]),
      (c!"Sheet1", [[.str c!"ip", .str c!"name"], [.str c!"2.2.2.2", .str c!"Lo1"]])]) := by decide +kernel

/-- C152, what does not hold: a second run of the same output does not update the tab `ints`, but adds the tab `Sheet0`. -/
theorem C152_second_run :
    (do
      let r ← runExcel Ex.ow Ex.xTitle Ex.xFiles (Ex.xOut c!"out") (Ex.xData c!"Lo1" c!"2.2.2.2")
      let s ← runExcel Ex.ow Ex.xTitle r.2 r.1 (Ex.xData c!"Lo2" c!"3.3.3.3")
      pure (s.2 c!"/tmp/out.xlsx")) =
    .ok (some [(c!"ints", [[.str c!"name", .str c!"ip"], [.str c!"Lo0", .str c!"1.1.1.1"], [.str c!"Lo1", .str c!"2.2.2.2"]]),
      (c!"Sheet1", [[.str c!"ip", .str c!"name"], [.str c!"2.2.2.2", .str c!"Lo1"], [.str c!"3.3.3.3", .str c!"Lo2"]]),
      (c!"Sheet0", [[.str c!"name", .str c!"ip"], [.str c!"Lo2", .str c!"3.3.3.3"]])]) := by decide +kernel

/-- the hypotheses of `C152_update_loses` are met: `{host}` is `r1`; the sheet that was in `r1.xlsx` loses its row -/
example : ∃ t' files', runExcel Ex.ow Ex.xTitle Ex.xFiles (Ex.xOut c!"{host}") (Ex.xData c!"Lo1" c!"2.2.2.2") = .ok (t', files') ∧
    files' c!"/tmp/r1.xlsx" = some [(c!"ints", [[.str c!"name", .str c!"ip"], [.str c!"Lo1", .str c!"2.2.2.2"]]),
      (c!"Sheet1", [[.str c!"ip", .str c!"name"], [.str c!"2.2.2.2", .str c!"Lo1"]])] :=
  C152_update_loses Ex.ow (by unfold Dict.WF; decide) Ex.xTitle (fun _ _ _ => rfl) Ex.xFiles (Ex.xOut c!"{host}")
    (Ex.xData c!"Lo1" c!"2.2.2.2") Ex.xTabs _ [.value c!"host"]
    (by
      intro n h
      simp only [List.mem_cons, FPart.value.injEq, List.not_mem_nil, or_false] at h
      subst h
      exact ⟨⟨'h', by decide, by decide⟩, by decide⟩) (by decide) c!"r1" c!"/tmp"
    (.value (v := .str c!"r1") (by decide) .nil) (by decide) (by decide) (by decide) (Ex.xTabs_are _ _) (by decide)
    (by
      intro t ht r hr c hc
      simp only [List.mem_cons, List.not_mem_nil, or_false] at ht
      rcases ht with rfl | rfl <;> (simp only [List.mem_cons, List.not_mem_nil, or_false] at hr; subst hr; simp only [List.mem_cons, List.not_mem_nil, or_false] at hc; rcases hc with rfl | rfl <;> trivial))
    (by decide)

/-- C152, what does not hold: rows that are added to a sheet do not go to the columns of its headers: without `headers` in the description the columns
are those of the new results, here the address stands in the column of the names. -/
theorem C152_columns :
    (runExcel Ex.ow Ex.xTitle Ex.xFiles
      (Ex.outT [(c!"table", .list [.dict [(.s c!"tab_name", .str c!"ints"), (.s c!"path", .str c!"ints")]]), (c!"filename", .str c!"out"),
        (c!"url", .str c!"/tmp"), (c!"update", .bool true)] [c!"file"])
      (.list [.dict [(.s c!"ints", .list [.dict [(.s c!"ip", .str c!"2.2.2.2")]])]])).map (fun r => r.2 c!"/tmp/out.xlsx") =
    .ok (some [(c!"ints", [[.str c!"name", .str c!"ip"], [.str c!"Lo0", .str c!"1.1.1.1"], [.str c!"2.2.2.2"]])]) := by decide +kernel

end Props
