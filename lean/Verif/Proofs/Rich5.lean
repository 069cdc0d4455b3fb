import Verif.Proofs.Rich4
/-! # Lemmas: the search of a group with rich lines -/

namespace TTP
open Py Spec Re

/-! ## Matches by position -/

/-- one match or none for each line, with positions -/
def placed : Nat → List Str → List (Option RawHit) → RawDict
  | p, t :: ts, some h :: hs => (p, [h]) :: placed (p + (t.length + 1)) ts hs
  | p, t :: ts, none :: hs => placed (p + (t.length + 1)) ts hs
  | _, _, _ => []

theorem mem_placed (lines : List Str) (rs : List (Option RawHit)) (p : Nat) (q : Nat) (hs : List RawHit) :
    (q, hs) ∈ placed p lines rs ↔ ∃ k t r, lines[k]? = some t ∧ rs[k]? = some (some r) ∧ q = p + posOf lines k ∧ hs = [r] := by
  induction lines generalizing rs p with
  | nil => simp [placed]
  | cons t ts ih =>
    have hposS : ∀ k, posOf (t :: ts) (k + 1) = t.length + 1 + posOf ts k := by intro k; simp [posOf]
    have hpos0 : posOf (t :: ts) 0 = 0 := rfl
    cases rs with
    | nil => simp [placed]
    | cons r rs =>
      have shift : (∃ k t' r', ts[k]? = some t' ∧ rs[k]? = some (some r') ∧ q = p + (t.length + 1) + posOf ts k ∧ hs = [r']) ↔
          ∃ k t' r', (t :: ts)[k + 1]? = some t' ∧ (r :: rs)[k + 1]? = some (some r') ∧ q = p + posOf (t :: ts) (k + 1) ∧
            hs = [r'] := by
        simp only [List.getElem?_cons_succ, hposS, Nat.add_assoc]
      have split : (∃ k t' r', (t :: ts)[k]? = some t' ∧ (r :: rs)[k]? = some (some r') ∧ q = p + posOf (t :: ts) k ∧ hs = [r']) ↔
          (∃ r', r = some r' ∧ q = p ∧ hs = [r']) ∨
          ∃ k t' r', (t :: ts)[k + 1]? = some t' ∧ (r :: rs)[k + 1]? = some (some r') ∧ q = p + posOf (t :: ts) (k + 1) ∧
            hs = [r'] := by
        constructor
        · rintro ⟨k, t', r', h1, h2, h3, h4⟩
          cases k with
          | zero => left; exact ⟨r', by simpa using h2, by simpa [hpos0] using h3, h4⟩
          | succ k => right; exact ⟨k, t', r', h1, h2, h3, h4⟩
        · rintro (⟨r', h1, h2, h3⟩ | ⟨k, t', r', h⟩)
          · exact ⟨0, t, r', by simp, by simp [h1], by simp [hpos0, h2], h3⟩
          · exact ⟨k + 1, t', r', h⟩
      rw [split, ← shift, ← ih]
      cases r with
      | none => simp [placed]
      | some r => simp only [placed, List.mem_cons, Prod.mk.injEq, Option.some.injEq, exists_eq_left']

theorem placed_sorted (lines : List Str) (rs : List (Option RawHit)) (p : Nat) : (placed p lines rs).Pairwise (fun a b => a.1 < b.1) := by
  induction lines generalizing rs p with
  | nil => simp [placed]
  | cons t ts ih =>
    cases rs with
    | nil => simp [placed]
    | cons r rs =>
      cases r with
      | none => exact ih rs _
      | some r =>
        simp only [placed, List.pairwise_cons]
        refine ⟨?_, ih rs _⟩
        rintro ⟨q, hs⟩ hm
        rw [mem_placed] at hm
        obtain ⟨k, _, _, _, _, h, _⟩ := hm
        show p < q
        omega

theorem placed_hits (lines : List Str) (rs : List (Option RawHit)) (p : Nat) (hlen : lines.length = rs.length) :
    (placed p lines rs).map Prod.snd = (rs.filterMap id).map ([·]) := by
  induction lines generalizing rs p with
  | nil =>
    have : rs = [] := List.length_eq_zero_iff.1 hlen.symm
    subst this; rfl
  | cons t ts ih =>
    cases rs with
    | nil => simp at hlen
    | cons r rs =>
      have hlen' : ts.length = rs.length := by simpa using hlen
      cases r with
      | none => simpa [placed] using ih rs _ hlen'
      | some r => simp only [placed, List.map_cons, ih rs _ hlen']; simp

theorem sortRaw_placed (log : List (Nat × RawHit)) (lines : List Str) (hs : List (Option RawHit)) (hlen : lines.length = hs.length) (p : Nat)
    (hpos : ∀ e ∈ log, ∃ k, k < lines.length ∧ e.1 = p + posOf lines k)
    (hat : ∀ (k : Nat) h, hs[k]? = some h → atPos log (p + posOf lines k) = h.toList) :
    sortRaw (logDict [] log) = placed p lines hs := by
  have hg := good_logDict [] log good_nil
  apply sorted_ext _ _ (sortRaw_strict _ hg.1) (placed_sorted _ _ _)
  rintro ⟨q, xs⟩
  rw [(sortRaw_perm _).mem_iff, mem_logDict, mem_placed]
  constructor
  · rintro ⟨rfl, hne⟩
    obtain ⟨x, hx⟩ := List.exists_mem_of_ne_nil _ hne
    simp only [atPos, List.mem_map, List.mem_filter] at hx
    obtain ⟨e, ⟨he, heq⟩, _⟩ := hx
    obtain ⟨k, hk, e1⟩ := hpos e he
    have heq : e.1 = q := by simpa using heq
    have hkh : k < hs.length := by omega
    have := hat k hs[k] (List.getElem?_eq_getElem hkh)
    rw [← heq, e1, this] at hne ⊢
    cases hh : hs[k] with
    | none => rw [hh] at hne; exact absurd rfl hne
    | some h => exact ⟨k, lines[k], h, List.getElem?_eq_getElem hk, by rw [List.getElem?_eq_getElem hkh, hh], rfl, rfl⟩
  · rintro ⟨k, t, h, hk, hh, rfl, rfl⟩
    rw [hat k (some h) hh]
    exact ⟨rfl, by simp⟩

/-! ## Parts of a log -/

theorem mem_atPos (log : List (Nat × RawHit)) (e : Nat × RawHit) (he : e ∈ log) : e.2 ∈ atPos log e.1 := by
  simp only [atPos, List.mem_map, List.mem_filter]
  exact ⟨e, ⟨he, by simp⟩, rfl⟩

theorem posOf_take (lines : List Str) (n k : Nat) (h : k ≤ n) : posOf (lines.take n) k = posOf lines k := by
  simp only [posOf, List.take_take, Nat.min_eq_left h]

section
variable (mf : MatchFns) (env : Env) (ctx : LoadCtx) (tpl : List RLine) (info : GInfo)

theorem logFor_mem {lines : List Str} {reads : Readings} (hlen : lines.length = reads.length) {start : Nat} {J : List Nat}
    {log : List (Nat × RawHit)} (h : LogFor tpl info lines reads start J log) (e : Nat × RawHit) (he : e ∈ log) :
    ∃ k j out, k < lines.length ∧ e.1 = start + posOf lines k ∧ reads[k]? = some (some (j, out)) ∧ j ∈ J := by
  obtain ⟨k, hk, e1⟩ := h.pos e he
  have hk' : k < reads.length := by omega
  have hn := h.num k reads[k] (List.getElem?_eq_getElem hk')
  have hm := mem_atPos log e he
  rw [e1, hn] at hm
  cases hr : reads[k] with
  | none => rw [hr] at hm; simp at hm
  | some x =>
    rw [hr] at hm
    by_cases hx : x.1 ∈ J
    · exact ⟨k, x.1, x.2, hk, e1, by rw [List.getElem?_eq_getElem hk', hr], hx⟩
    · simp [Option.filter, hx] at hm

theorem logFor_drop {lines : List Str} {reads : Readings} (hlen : lines.length = reads.length) {start : Nat} {J : List Nat}
    {log : List (Nat × RawHit)} (h : LogFor tpl info lines reads start J log) (i : Nat) (hi : i ≤ lines.length)
    (hJ : ∀ (k : Nat) j out, reads[k]? = some (some (j, out)) → j ∈ J → i ≤ k) :
    LogFor tpl info (lines.drop i) (reads.drop i) (start + posOf lines i) J log := by
  constructor
  · intro e he
    obtain ⟨k, j, out, hk, e1, hr, hj⟩ := logFor_mem tpl info hlen h e he
    have := hJ k j out hr hj
    refine ⟨k - i, by simp; omega, ?_⟩
    rw [Nat.add_assoc, ← posOf_add lines i (k - i) hi, show i + (k - i) = k by omega]
    exact e1
  · intro k r hr
    rw [List.getElem?_drop] at hr
    rw [Nat.add_assoc, ← posOf_add lines i k hi]
    exact h.num (i + k) r hr

theorem logFor_take {lines : List Str} {reads : Readings} (hlen : lines.length = reads.length) {start : Nat} {J : List Nat}
    {log : List (Nat × RawHit)} (h : LogFor tpl info lines reads start J log) (n : Nat)
    (hJ : ∀ (k : Nat) j out, reads[k]? = some (some (j, out)) → j ∈ J → k < n) :
    LogFor tpl info (lines.take n) (reads.take n) start J log := by
  constructor
  · intro e he
    obtain ⟨k, j, out, hk, e1, hr, hj⟩ := logFor_mem tpl info hlen h e he
    have := hJ k j out hr hj
    exact ⟨k, by simp; omega, by rw [posOf_take _ _ _ (by omega)]; exact e1⟩
  · intro k r hr
    have hk : k < n := by
      have := (List.getElem?_eq_some_iff.1 hr).1
      simp at this; omega
    rw [List.getElem?_take_of_lt hk] at hr
    rw [posOf_take _ _ _ (by omega)]
    exact h.num k r hr

/-- one line more, that is not read as one of these -/
theorem logFor_more {lines : List Str} {reads : Readings} (hlen : lines.length = reads.length) {start : Nat} {J : List Nat}
    {log : List (Nat × RawHit)} (n : Nat) (hn : n < lines.length) (h : LogFor tpl info (lines.take n) (reads.take n) start J log)
    (hJ : ∀ j out, reads[n]? = some (some (j, out)) → j ∉ J) :
    LogFor tpl info (lines.take (n + 1)) (reads.take (n + 1)) start J log := by
  constructor
  · intro e he
    obtain ⟨k, hk, e1⟩ := h.pos e he
    have hk' : k < n := by simp at hk; omega
    exact ⟨k, by simp; omega, by rw [e1, posOf_take _ _ _ (by omega), posOf_take _ _ _ (by omega)]⟩
  · intro k r hr
    have hk : k < n + 1 := by
      have := (List.getElem?_eq_some_iff.1 hr).1
      simp at this; omega
    rw [List.getElem?_take_of_lt hk] at hr
    rw [posOf_take _ _ _ (by omega)]
    by_cases hkn : k < n
    · have := h.num k r (by rw [List.getElem?_take_of_lt hkn]; exact hr)
      rw [posOf_take _ _ _ (by omega)] at this
      exact this
    · have hkn : k = n := by omega
      subst hkn
      have h1 : atPos log (start + posOf lines k) = [] := by
        simp only [atPos, List.map_eq_nil_iff, List.filter_eq_nil_iff]
        intro e he heq
        obtain ⟨k', hk', e1⟩ := h.pos e he
        have hk' : k' < k := by simp at hk'; omega
        have heq : e.1 = start + posOf lines k := by simpa using heq
        rw [posOf_take _ _ _ (by omega)] at e1
        have := posOf_lt lines k' k hk' (by omega)
        omega
      rw [h1]
      cases r with
      | none => rfl
      | some x =>
        have := hJ x.1 x.2 hr
        simp [Option.filter, this]

/-- numbers of the lines of a kind -/
theorem sel_pick (k : LineKind) : Pick tpl (sel k 0 tpl) := by
  constructor
  · rintro ⟨j, l⟩ hm
    have := (mem_sel k tpl 0 j l).1 hm
    simpa using this.2.1
  · have key : ∀ (tpl : List RLine) (i : Nat), ((sel k i tpl).map (·.1)).Nodup := by
      intro tpl
      induction tpl with
      | nil => intro i; simp [sel]
      | cons l tpl ih =>
        intro i
        have h1 : ∀ x ∈ (sel k (i + 1) tpl).map (·.1), i < x := by
          intro x hx
          obtain ⟨⟨j, l'⟩, hm, rfl⟩ := List.mem_map.1 hx
          have := (mem_sel k tpl (i + 1) j l').1 hm
          have := this.1
          show i < j
          omega
        unfold sel
        split
        · simp only [List.map_cons, List.nodup_cons]
          exact ⟨fun h => absurd (h1 i h) (Nat.lt_irrefl _), ih (i + 1)⟩
        · exact ih (i + 1)
    exact key tpl 0

theorem mem_selNums (kd : LineKind) (j : Nat) : j ∈ (sel kd 0 tpl).map (·.1) ↔ ∃ l, tpl[j]? = some l ∧ kindOf j l = kd := by
  constructor
  · intro h
    obtain ⟨⟨j', l⟩, hm, rfl⟩ := List.mem_map.1 h
    have := (mem_sel kd tpl 0 j' l).1 hm
    exact ⟨l, by simpa using this.2.1, this.2.2⟩
  · rintro ⟨l, h1, h2⟩
    exact List.mem_map.2 ⟨(j, l), (mem_sel kd tpl 0 j l).2 ⟨by omega, by simpa using h1, h2⟩, rfl⟩

/-- the text line is read as a template line of a kind -/
def KindRead (reads : Readings) (kd : LineKind) (k : Nat) : Prop := ∃ j out, reads[k]? = some (some (j, out)) ∧ kindAt tpl j = kd

theorem read_num {lines : List Str} {reads : Readings} (hr : All2 (RichReads mf env tpl) lines reads) (k j : Nat) (out : Option (Dict Key Val))
    (h : reads[k]? = some (some (j, out))) : ∃ l, tpl[j]? = some l := by
  have hk : k < lines.length := by rw [all2_len hr]; exact (List.getElem?_eq_some_iff.1 h).1
  obtain ⟨r, h1, h2⟩ := all2_get hr k lines[k] (List.getElem?_eq_getElem hk)
  rw [h] at h1
  cases h1
  obtain ⟨l, _, hl, _⟩ := h2
  exact ⟨l, hl⟩

theorem isOf_sel {lines : List Str} {reads : Readings} (hr : All2 (RichReads mf env tpl) lines reads) (kd : LineKind) (k : Nat) :
    IsOf reads (sel kd 0 tpl) k ↔ KindRead tpl reads kd k := by
  constructor
  · rintro ⟨j, out, h, hm⟩
    obtain ⟨l, h1, h2⟩ := (mem_selNums tpl kd j).1 hm
    exact ⟨j, out, h, by rw [kindAt_get tpl j l h1]; exact h2⟩
  · rintro ⟨j, out, h, hk⟩
    obtain ⟨l, hl⟩ := read_num mf env tpl hr k j out h
    exact ⟨j, out, h, (mem_selNums tpl kd j).2 ⟨l, hl, by rw [← kindAt_get tpl j l hl]; exact hk⟩⟩

theorem all2_drop {α β : Type} {R : α → β → Prop} {as : List α} {bs : List β} (h : All2 R as bs) (n : Nat) : All2 R (as.drop n) (bs.drop n) := by
  induction h generalizing n with
  | nil => simp; exact .nil
  | cons h1 h2 ih =>
    cases n with
    | zero => exact .cons h1 h2
    | succ n => exact ih n

theorem all2_take {α β : Type} {R : α → β → Prop} {as : List α} {bs : List β} (h : All2 R as bs) (n : Nat) : All2 R (as.take n) (bs.take n) := by
  induction h generalizing n with
  | nil => simp; exact .nil
  | cons h1 h2 ih =>
    cases n with
    | zero => exact .nil
    | succ n => exact .cons h1 (ih n)

/-! ## The cut text -/

theorem nlText_take (lines : List Str) (K : Nat) (t : Str) (hK : lines[K]? = some t) (n : Nat) (hn : n ≤ t.length) :
    (nlText lines).take (posOf lines K + 1 + n) = nlCut (lines.take K) (t.take n) := by
  induction lines generalizing K with
  | nil => cases hK
  | cons l ls ih =>
    cases K with
    | zero =>
      simp only [List.getElem?_cons_zero, Option.some.injEq] at hK
      subst hK
      have e : posOf (l :: ls) 0 = 0 := rfl
      rw [e, show 0 + 1 + n = n + 1 by omega, nlText, List.take_succ_cons, List.take_append_of_le_length hn]
      rfl
    | succ K =>
      have hK' : ls[K]? = some t := by simpa using hK
      have e : posOf (l :: ls) (K + 1) = l.length + 1 + posOf ls K := by simp [posOf]
      rw [e, show l.length + 1 + posOf ls K + 1 + n = (l.length + (posOf ls K + 1 + n)) + 1 by omega, nlText, List.take_succ_cons,
        List.take_append, Nat.add_sub_cancel_left, ih K hK', List.take_of_length_le (by omega)]
      rfl

theorem nlText_length (lines : List Str) : (nlText lines).length = posOf lines lines.length + 1 := by
  induction lines with
  | nil => rfl
  | cons l ls ih =>
    have e : posOf (l :: ls) (ls.length + 1) = l.length + 1 + posOf ls ls.length := by simp [posOf]
    simp only [nlText, List.length_cons, List.length_append, ih, e]; omega

theorem slice_cut (lines : List Str) (hne : lines ≠ []) (i k : Nat) (t : Str) (hk : (lines.drop i)[k]? = some t) (v : Nat)
    (h1 : posOf (lines.drop i) k < v) (h2 : v ≤ posOf (lines.drop i) k + 1 + t.length) :
    ∃ p, p <+: t ∧ slice (dataText (join c!"\n" lines)) (posOf lines i) (some (posOf lines i + v)) = nlCut ((lines.drop i).take k) p := by
  have hk2 : lines[i + k]? = some t := by rw [← List.getElem?_drop]; exact hk
  have hlt : i + k < lines.length := (List.getElem?_eq_some_iff.1 hk2).1
  have hadd := posOf_add lines i k (by omega)
  have hs := posOf_succ lines (i + k) t hk2
  have hle := posOf_le lines (i + k + 1) lines.length (Nat.le_refl _) (by omega)
  have hlen := nlText_length lines
  refine ⟨t.take (v - posOf (lines.drop i) k - 1), List.take_prefix _ _, ?_⟩
  simp only [slice]
  have htk : (dataText (join c!"\n" lines)).take (posOf lines i + v) = (nlText lines).take (posOf lines i + v) := by
    rw [← nlText_join lines hne, List.dropLast_eq_take, List.take_take, Nat.min_eq_left]
    have : (nlText lines).length = (dataText (join c!"\n" lines)).length - 1 := by rw [← nlText_join lines hne]; simp
    omega
  rw [htk, show posOf lines i + v = posOf lines (i + k) + 1 + (v - posOf (lines.drop i) k - 1) by omega,
    nlText_take lines (i + k) t hk2 _ (by omega)]
  have e1 : posOf lines i = posOf (lines.take (i + k)) i := (posOf_take _ _ _ (by omega)).symm
  rw [e1, nlCut_drop _ _ i (by simp; omega)]
  congr 1
  rw [List.drop_take]
  congr 1
  omega

theorem removeLoop_id (bad : RawHit → Bool) (hs : List RawHit) (h : ∀ x ∈ hs, bad x = false) : removeLoop bad hs = hs := by
  fun_induction removeLoop bad hs with
  | case1 => rfl
  | case2 x hb => rw [h x (by simp)] at hb; cases hb
  | case3 => rfl
  | case4 x y rest hb ih => rw [h x (by simp)] at hb; cases hb
  | case5 x y rest _ ih => rw [ih (fun z hz => h z (by simp [hz]))]

theorem cleanup_id (stop : Nat) (r : RawDict) (hg : Good r) (h : ∀ kv ∈ r, kv.1 ≤ stop) : cleanup info stop r = r := by
  unfold cleanup
  have e : (r.map (fun kv => (kv.1, removeLoop (fun h => h.info.uid == info.uid && decide (kv.1 > stop)) kv.2))) = r := by
    have : ∀ kv ∈ r, (fun kv : Nat × List RawHit =>
        (kv.1, removeLoop (fun h => h.info.uid == info.uid && decide (kv.1 > stop)) kv.2)) kv = id kv := by
      intro kv hkv
      have := h kv hkv
      simp only [id]
      rw [removeLoop_id]
      intro x _
      simp; omega
    rw [List.map_congr_left this, List.map_id]
  rw [e, List.filter_eq_self]
  intro kv hkv
  have := hg.2 kv hkv
  simpa using this

/-! ## The group -/

theorem runRe_rich_none (name : Str) (fs : List FnCall) (ho : ∀ l ∈ tpl, l.OK ctx) (lines : List Str) (hne : lines ≠ []) (hl : ∀ t ∈ lines, '\n' ∉ t)
    (reads : Readings) (hr : All2 (RichReads mf env tpl) lines reads) (hno : ∀ k, ¬ KindRead tpl reads .start k) (d : Bool)
    (hd : d = startDefault (selRx .start 0 tpl) (richDefaults tpl)) :
    runRe mf (dataText (join c!"\n" lines)) (richGrp name fs tpl) 0 none env [] =
      .ok (env, if d then addDefault (richGInfo name fs tpl) (selRx .start 0 tpl) [] else []) := by
  have hs0 : slice (dataText (join c!"\n" lines)) 0 none = nlCut lines [] := by
    have := slice_nl lines hne 0 (Nat.zero_le _)
    rw [nlCut_nil]
    simpa [posOf] using this
  obtain ⟨log, si', e1, h1, h2, _⟩ := runStarts_rich mf env ctx tpl (richGInfo name fs tpl) ho (dataText (join c!"\n" lines)) lines hl reads hr 0 hs0
    (sel .start 0 tpl) (sel_pick tpl .start) ⟨none, 0⟩ []
  have hsi : si'.s = none := h2.2 ⟨rfl, fun k h => hno k ((isOf_sel mf env tpl hr .start k).1 h)⟩
  have hlog : log = [] := by
    cases hc : log with
    | nil => rfl
    | cons e log' =>
      obtain ⟨k, j, out, _, _, h3, h4⟩ := logFor_mem tpl (richGInfo name fs tpl) (all2_len hr) h1 e (by rw [hc]; simp)
      exact absurd ((isOf_sel mf env tpl hr .start k).1 ⟨j, out, h3, h4⟩) (hno k)
  subst hlog
  have e1' : runStarts mf (dataText (join c!"\n" lines)) (richGInfo name fs tpl) 0 none (selRx .start 0 tpl) ⟨none, 0⟩ env [] = .ok (si', env, []) := e1
  obtain ⟨s, se⟩ := si'
  simp only at hsi
  subst hsi
  simp only [richGrp, runRe, e1', ok_bind, runDefaultChildren, pure_ok, ← hd]

theorem runRe_rich_some (name : Str) (fs : List FnCall) (ho : ∀ l ∈ tpl, l.OK ctx) (lines : List Str) (hne : lines ≠ []) (hl : ∀ t ∈ lines, '\n' ∉ t)
    (reads : Readings) (hr : All2 (RichReads mf env tpl) lines reads) (hsome : ∃ k, KindRead tpl reads .start k) :
    ∃ i n log, i + n ≤ lines.length ∧
      runRe mf (dataText (join c!"\n" lines)) (richGrp name fs tpl) 0 none env [] = .ok (env, logDict [] log) ∧
      sortRaw (logDict [] log) = placed (posOf lines i) ((lines.drop i).take n)
        (((reads.drop i).take n).map (fun r => r.bind (hitFor (richGInfo name fs tpl) tpl))) ∧
      KindRead tpl reads .start i ∧ 0 < n ∧
      (∀ k, KindRead tpl reads .start k → i ≤ k) ∧
      (i + n = lines.length ∨ (KindRead tpl reads .stop (i + n - 1) ∧ ∀ k, KindRead tpl reads .start k → k < i + n)) := by
  have hs0 : slice (dataText (join c!"\n" lines)) 0 none = nlCut lines [] := by
    have := slice_nl lines hne 0 (Nat.zero_le _)
    rw [nlCut_nil]
    simpa [posOf] using this
  have hlen := all2_len hr
  obtain ⟨log1, si', e1, L1, h2, h3, h4, h5⟩ := runStarts_rich mf env ctx tpl (richGInfo name fs tpl) ho (dataText (join c!"\n" lines)) lines hl reads hr 0 hs0
    (sel .start 0 tpl) (sel_pick tpl .start) ⟨none, 0⟩ []
  obtain ⟨s, se⟩ := si'
  have hsn : s ≠ none := by
    intro e
    obtain ⟨k, hk⟩ := hsome
    exact (h2.1 e).2 k ((isOf_sel mf env tpl hr .start k).2 hk)
  obtain ⟨s, rfl⟩ := Option.ne_none_iff_exists'.1 hsn
  obtain ⟨ha, _, hc⟩ := h3 s rfl
  obtain ⟨i, hi, rfl⟩ : ∃ k, IsOf reads (sel .start 0 tpl) k ∧ s = posOf lines k := by
    rcases ha with ha | ha
    · cases ha
    · exact ha
  have hil : i < lines.length := by
    obtain ⟨_, _, h, _⟩ := hi
    rw [hlen]; exact (List.getElem?_eq_some_iff.1 h).1
  have hi' := (isOf_sel mf env tpl hr .start i).1 hi
  have hmin : ∀ k, KindRead tpl reads .start k → i ≤ k := by
    intro k hk
    have h6 := hc k ((isOf_sel mf env tpl hr .start k).2 hk)
    have hkl : k < lines.length := by
      obtain ⟨_, _, h, _⟩ := hk
      rw [hlen]; exact (List.getElem?_eq_some_iff.1 h).1
    by_cases hik : i ≤ k
    · exact hik
    · have := posOf_lt lines k i (by omega) (by omega)
      omega
  have hse : ∀ k, KindRead tpl reads .start k → posOf lines k ≤ se := fun k hk => h5 k ((isOf_sel mf env tpl hr .start k).2 hk)
  have hs1 : slice (dataText (join c!"\n" lines)) (posOf lines i) none = nlCut (lines.drop i) [] := by
    rw [nlCut_nil]; exact slice_nl lines hne i (by omega)
  have hld : ∀ t ∈ lines.drop i, '\n' ∉ t := fun t ht => hl t (List.mem_of_mem_drop ht)
  have hrd := all2_drop hr i
  have hlend := all2_len hrd
  obtain ⟨log2, e', e2, L2, g1, g2⟩ := runEnds_rich mf env ctx tpl (richGInfo name fs tpl) ho (dataText (join c!"\n" lines)) (lines.drop i) hld (reads.drop i)
    hrd (posOf lines i) se hs1 (sel .stop 0 tpl) (sel_pick tpl .stop) none (by intro v e; cases e) (logDict [] log1)
  have e1' : runStarts mf (dataText (join c!"\n" lines)) (richGInfo name fs tpl) 0 none (selRx .start 0 tpl) ⟨none, 0⟩ env [] =
    .ok (⟨some (posOf lines i), se⟩, env, logDict [] log1) := e1
  have e2' : runEnds mf (dataText (join c!"\n" lines)) (richGInfo name fs tpl) (posOf lines i) none se (selRx .stop 0 tpl) none env (logDict [] log1) =
    .ok (e', env, logDict (logDict [] log1) log2) := e2
  -- the starts, seen from the first one
  have L1' : LogFor tpl (richGInfo name fs tpl) (lines.drop i) (reads.drop i) (posOf lines i) ((sel .start 0 tpl).map (·.1)) log1 := by
    have := logFor_drop tpl (richGInfo name fs tpl) hlen L1 i (by omega) (by
      intro k j out h hj
      exact hmin k ((isOf_sel mf env tpl hr .start k).1 ⟨j, out, h, hj⟩))
    simpa using this
  have hdisj : ∀ a b : LineKind, a ≠ b → ∀ j ∈ (sel a 0 tpl).map (·.1), j ∉ (sel b 0 tpl).map (·.1) := by
    intro a b hab j h1 h2
    obtain ⟨l, x1, x2⟩ := (mem_selNums tpl a j).1 h1
    obtain ⟨l', y1, y2⟩ := (mem_selNums tpl b j).1 h2
    rw [x1] at y1
    cases y1
    exact hab (x2.symm.trans y2)
  have hdropk : ∀ kd k, KindRead tpl (reads.drop i) kd k ↔ KindRead tpl reads kd (i + k) := by
    intro kd k
    simp only [KindRead, List.getElem?_drop]
  -- the last step, for every number of lines
  have finish : ∀ (n : Nat) (log3 : List (Nat × RawHit)), n ≤ (lines.drop i).length →
      LogFor tpl (richGInfo name fs tpl) ((lines.drop i).take n) ((reads.drop i).take n) (posOf lines i) ((sel .start 0 tpl).map (·.1)) log1 →
      LogFor tpl (richGInfo name fs tpl) ((lines.drop i).take n) ((reads.drop i).take n) (posOf lines i) ((sel .stop 0 tpl).map (·.1)) log2 →
      LogFor tpl (richGInfo name fs tpl) ((lines.drop i).take n) ((reads.drop i).take n) (posOf lines i) ((sel .normal 0 tpl).map (·.1)) log3 →
      sortRaw (logDict [] (log1 ++ log2 ++ log3)) = placed (posOf lines i) ((lines.drop i).take n)
        (((reads.drop i).take n).map (fun r => r.bind (hitFor (richGInfo name fs tpl) tpl))) := by
    intro n log3 hn a1 a2 a3
    have L := logFor_append tpl (richGInfo name fs tpl) _ _ _ _ _ _ _
      (logFor_append tpl (richGInfo name fs tpl) _ _ _ _ _ _ _ a1 a2 (hdisj .start .stop (by decide))) a3 (by
        intro j hj
        rcases List.mem_append.1 hj with h | h
        · exact hdisj .start .normal (by decide) j h
        · exact hdisj .stop .normal (by decide) j h)
    apply sortRaw_placed _ _ _ (by simp [hlen]) _ L.pos
    intro k h hk
    simp only [List.getElem?_map, Option.map_eq_some_iff] at hk
    obtain ⟨r, hrk, rfl⟩ := hk
    rw [L.num k r hrk]
    cases r with
    | none => rfl
    | some x =>
      obtain ⟨j, out⟩ := x
      obtain ⟨l, hl'⟩ := read_num mf env tpl (all2_take hrd n) k j out hrk
      have : j ∈ (sel .start 0 tpl).map (·.1) ++ (sel .stop 0 tpl).map (·.1) ++ (sel .normal 0 tpl).map (·.1) := by
        simp only [List.mem_append, mem_selNums]
        cases hk : kindOf j l with
        | start => exact Or.inl (Or.inl ⟨l, hl', hk⟩)
        | stop => exact Or.inl (Or.inr ⟨l, hl', hk⟩)
        | normal => exact Or.inr ⟨l, hl', hk⟩
      simp only [Option.filter, decide_eq_true this, if_true]
  cases e' with
  | none =>
    obtain ⟨log3, e3, L3⟩ := runNormals_rich mf env ctx tpl (richGInfo name fs tpl) ho (dataText (join c!"\n" lines)) (lines.drop i) hld [] (by simp)
      (reads.drop i) hrd (posOf lines i) none hs1 (sel .normal 0 tpl) (sel_pick tpl .normal) (logDict [] (log1 ++ log2))
    refine ⟨i, lines.length - i, log1 ++ log2 ++ log3, by omega, ?_, ?_, hi', by omega, hmin, Or.inl (by omega)⟩
    · have e3' : runNormals mf (dataText (join c!"\n" lines)) (richGInfo name fs tpl) (posOf lines i) none (selRx .normal 0 tpl) env
          (logDict [] (log1 ++ log2)) = .ok (env, logDict (logDict [] (log1 ++ log2)) log3) := e3
      simp only [richGrp, runRe, e1', ok_bind, Nat.zero_add, e2', ← logDict_append]
      rw [e3']
      simp only [ok_bind, runChildren, pure_ok, logDict_append]
    · have et : (lines.drop i).take (lines.length - i) = lines.drop i := List.take_of_length_le (by simp)
      have et' : (reads.drop i).take (lines.length - i) = reads.drop i := List.take_of_length_le (by simp [hlen])
      have := finish (lines.length - i) log3 (by simp)
      rw [et, et'] at this ⊢
      exact this L1' L2 L3
  | some v =>
    obtain ⟨b1, b2, b3⟩ := g1 v rfl
    obtain ⟨k, t, hk, hkt, c1, c2⟩ : EndAt (lines.drop i) (reads.drop i) (sel .stop 0 tpl) v := by
      rcases b2 with b2 | b2
      · cases b2
      · exact b2
    have hk' := (isOf_sel mf env tpl hrd .stop k).1 hk
    have hkl : k < (lines.drop i).length := (List.getElem?_eq_some_iff.1 hkt).1
    have hikl : i + k < lines.length := by simp at hkl; omega
    obtain ⟨p, hp, hs2⟩ := slice_cut lines hne i k t hkt v c1 c2
    have hpn : '\n' ∉ p := fun h => hld t (List.mem_of_getElem? hkt) (hp.subset h)
    obtain ⟨log3, e3, L3⟩ := runNormals_rich mf env ctx tpl (richGInfo name fs tpl) ho (dataText (join c!"\n" lines)) ((lines.drop i).take k)
      (fun t ht => hld t (List.mem_of_mem_take ht)) p hpn
      ((reads.drop i).take k) (all2_take hrd k) (posOf lines i) (some (posOf lines i + v)) hs2 (sel .normal 0 tpl) (sel_pick tpl .normal)
      (logDict [] (log1 ++ log2))
    -- every start is before the end line, and so is every other end
    have hE : posOf lines (i + k) < posOf lines i + v ∧ posOf lines i + v ≤ posOf lines (i + k + 1) := by
      have h6 := posOf_add lines i k (by omega)
      have h7 := posOf_succ lines (i + k) t (by rw [← List.getElem?_drop]; exact hkt)
      omega
    have hbefore : ∀ k', KindRead tpl reads .start k' → k' < i + k := by
      intro k' hk2
      have h6 := hse k' hk2
      have hk2l : k' < lines.length := by
        obtain ⟨_, _, h, _⟩ := hk2
        rw [hlen]; exact (List.getElem?_eq_some_iff.1 h).1
      by_cases hlt : k' < i + k
      · exact hlt
      · by_cases heq : k' = i + k
        · subst heq
          rw [hdropk] at hk'
          obtain ⟨j, out, x1, x2⟩ := hk2
          obtain ⟨j', out', y1, y2⟩ := hk'
          rw [x1] at y1
          cases y1
          rw [x2] at y2
          cases y2
        · have h8 := posOf_le lines (i + k + 1) k' (by omega) (by omega)
          omega
    have hends : ∀ k', KindRead tpl (reads.drop i) .stop k' → k' ≤ k := by
      intro k' hk2
      have h6 := b3 k' ((isOf_sel mf env tpl hrd .stop k').2 hk2)
      have hk2l : k' < (lines.drop i).length := by
        obtain ⟨_, _, h, _⟩ := hk2
        rw [hlend]; exact (List.getElem?_eq_some_iff.1 h).1
      by_cases hle : k' ≤ k
      · exact hle
      · have h7 := posOf_succ (lines.drop i) k t hkt
        have h8 := posOf_le (lines.drop i) (k + 1) k' (by omega) (by omega)
        omega
    refine ⟨i, k + 1, log1 ++ log2 ++ log3, by omega, ?_, ?_, hi', by omega, hmin, Or.inr ⟨?_, fun k' hk2 => by have := hbefore k' hk2; omega⟩⟩
    · have e3' : runNormals mf (dataText (join c!"\n" lines)) (richGInfo name fs tpl) (posOf lines i) (some (posOf lines i + v)) (selRx .normal 0 tpl) env
          (logDict [] (log1 ++ log2)) = .ok (env, logDict (logDict [] (log1 ++ log2)) log3) := e3
      have hcl : cleanup (richGInfo name fs tpl) (posOf lines i + v) (logDict [] (log1 ++ log2)) = logDict [] (log1 ++ log2) := by
        have hg := good_logDict [] (log1 ++ log2) good_nil
        apply cleanup_id _ _ _ hg
        rintro ⟨q, xs⟩ hq
        rw [mem_logDict] at hq
        obtain ⟨rfl, hne'⟩ := hq
        obtain ⟨x, hx⟩ := List.exists_mem_of_ne_nil _ hne'
        simp only [atPos, List.mem_map, List.mem_filter] at hx
        obtain ⟨e, ⟨he, heq⟩, _⟩ := hx
        have heq : e.1 = q := by simpa using heq
        show q ≤ _
        rcases List.mem_append.1 he with he | he
        · obtain ⟨k', j, out, x1, x2, x3, x4⟩ := logFor_mem tpl (richGInfo name fs tpl) hlen L1 e he
          have h9 := hse k' ((isOf_sel mf env tpl hr .start k').1 ⟨j, out, x3, x4⟩)
          omega
        · obtain ⟨k', j, out, x1, x2, x3, x4⟩ := logFor_mem tpl (richGInfo name fs tpl) hlend L2 e he
          have h9 := b3 k' ⟨j, out, x3, x4⟩
          omega
      simp only [richGrp, runRe, e1', ok_bind, Nat.zero_add, e2', ← logDict_append, hcl]
      rw [e3']
      simp only [ok_bind, runChildren, pure_ok, logDict_append]
    · apply finish (k + 1) log3 (by omega)
      · apply logFor_take tpl (richGInfo name fs tpl) hlend L1'
        intro k' j out h hj
        have := hbefore (i + k') ((hdropk .start k').1 ((isOf_sel mf env tpl hrd .start k').1 ⟨j, out, h, hj⟩))
        omega
      · apply logFor_take tpl (richGInfo name fs tpl) hlend L2
        intro k' j out h hj
        have := hends k' ((isOf_sel mf env tpl hrd .stop k').1 ⟨j, out, h, hj⟩)
        omega
      · apply logFor_more tpl (richGInfo name fs tpl) hlend k hkl L3
        intro j out h hj
        obtain ⟨j', out', y1, y2⟩ := hk'
        rw [h] at y1
        cases y1
        obtain ⟨l, z1, z2⟩ := (mem_selNums tpl .normal j).1 hj
        rw [kindAt_get tpl j l z1, z2] at y2
        cases y2
    · rw [show i + (k + 1) - 1 = i + k by omega]
      exact (hdropk .stop k).1 hk'

end

end TTP
