import Verif.Proofs.Tree1
/-! # Lemmas: the matches of nested groups with plain lines -/

namespace TTP
open Py Spec Re

/-- how the lines of a text are read -/
abbrev Reading := List (Option (List Str × Nat × List (Str × Str)))

/-! ## Where groups are found -/

/-- is this a start of the group -/
def isStartOf (g : List Str) : Option (Option (List Str × Nat × List (Str × Str))) → Bool
  | some (some (g', 0, _)) => decide (g' = g)
  | _ => false

theorem isStartOf_iff (g : List Str) (r) : isStartOf g r = true ↔ ∃ v, r = some (some (g, 0, v)) := by
  unfold isStartOf
  split
  · rename_i g' v
    simp only [decide_eq_true_eq, Option.some.injEq, Prod.mk.injEq, true_and]
    exact ⟨fun h => ⟨v, h, rfl⟩, fun ⟨_, h, _⟩ => h⟩
  · rename_i h
    simp only [Bool.false_eq_true, false_iff, not_exists]
    rintro v rfl
    exact h g v rfl

/-- first start of the group from a line on -/
def firstStart (reads : Reading) (m : Nat) (g : List Str) : Option Nat :=
  (List.range reads.length).find? (fun k => decide (m ≤ k) && isStartOf g reads[k]?)

/-- line of the first start that counts; the names are reversed -/
def foundR (reads : Reading) : List Str → Option Nat
  | [] => some 0
  | n :: rp => (foundR reads rp).bind (fun m => firstStart reads m (n :: rp).reverse)

/-- line of the first start that counts -/
def found (reads : Reading) (g : List Str) : Option Nat := foundR reads g.reverse

theorem found_snoc (reads : Reading) (p : List Str) (n : Str) :
    found reads (p ++ [n]) = (found reads p).bind (fun m => firstStart reads m (p ++ [n])) := by
  simp [found, foundR]

theorem find?_range_some (n : Nat) (p : Nat → Bool) (k : Nat) (h : (List.range n).find? p = some k) :
    k < n ∧ p k = true ∧ ∀ k', k' < k → p k' = false := by
  have h1 := List.find?_some h
  have h2 := List.mem_of_find?_eq_some h
  refine ⟨List.mem_range.1 h2, h1, ?_⟩
  intro k' hk'
  rw [List.find?_eq_some_iff_append] at h
  obtain ⟨_, as, bs, e, hall⟩ := h
  have hlen : as.length = k := by
    have hk := List.mem_range.1 h2
    have : (List.range n)[as.length]? = some k := by rw [e]; simp
    have hlt : as.length < n := by
      have := congrArg List.length e
      simp at this
      omega
    rw [List.getElem?_range hlt] at this
    simpa using this
  have hmem : k' ∈ as := by
    have hlt : k' < as.length := by omega
    have : (List.range n)[k']? = as[k']? := by rw [e, List.getElem?_append_left hlt]
    rw [List.getElem?_range (by have := List.mem_range.1 h2; omega)] at this
    exact List.mem_of_getElem? this.symm
  simpa using hall k' hmem

theorem firstStart_some (reads : Reading) (m : Nat) (g : List Str) (k : Nat) (h : firstStart reads m g = some k) :
    m ≤ k ∧ (∃ v, reads[k]? = some (some (g, 0, v))) ∧ ∀ k' v, m ≤ k' → reads[k']? = some (some (g, 0, v)) → k ≤ k' := by
  obtain ⟨h1, h2, h3⟩ := find?_range_some _ _ _ h
  simp only [Bool.and_eq_true, decide_eq_true_eq, isStartOf_iff] at h2
  refine ⟨h2.1, h2.2, ?_⟩
  intro k' v hm hv
  rcases Nat.lt_or_ge k' k with hlt | hge
  · have := h3 k' hlt
    simp only [hm, decide_true, Bool.true_and] at this
    rw [(isStartOf_iff g _).2 ⟨v, hv⟩] at this
    cases this
  · exact hge

theorem firstStart_none (reads : Reading) (m : Nat) (g : List Str) (h : firstStart reads m g = none) :
    ∀ (k : Nat) v, m ≤ k → reads[k]? ≠ some (some (g, 0, v)) := by
  intro k v hm hv
  rw [firstStart, List.find?_eq_none] at h
  have hk : k < reads.length := (List.getElem?_eq_some_iff.1 hv).1
  apply h k (List.mem_range.2 hk)
  simp only [hm, decide_true, Bool.true_and]
  exact (isStartOf_iff g _).2 ⟨v, hv⟩

theorem found_none_prefix (reads : Reading) (q g : List Str) (h : found reads q = none) (hp : q <+: g) : found reads g = none := by
  obtain ⟨r, rfl⟩ := hp
  have key : ∀ r : List Str, foundR reads (r ++ q.reverse) = none := by
    intro r
    induction r with
    | nil => exact h
    | cons n r ih => simp only [List.cons_append, foundR, ih]; rfl
  simpa [found] using key r.reverse

/-- the match counts: it is after the start of the parent, or of the group -/
def Counts (reads : Reading) (g : List Str) (j k : Nat) : Prop :=
  ∃ m, found reads (if j = 0 then g.dropLast else g) = some m ∧ m ≤ k

/-- this match is what was read -/
structure IsHit (id : List Str → GId) (g : List Str) (j : Nat) (v : List (Str × Str)) (h : RawHit) : Prop where
  info : InfoOk id g h.info
  action : h.line.action = if j = 0 then .start else .add
  isLine : h.line.isLine = false
  data : h.data = some (recOf v)

/-- The log has all matches of groups below one of the names, and no other. -/
structure LogOk (id : List Str → GId) (lines : List Str) (reads : Reading) (below : List Str → Prop) (log : List (Nat × RawHit)) : Prop where
  pos : ∀ x ∈ log, ∃ k, k < lines.length ∧ x.1 = posOf lines k
  yes : ∀ (k : Nat) g j v, reads[k]? = some (some (g, j, v)) → below g → Counts reads g j k →
    ∃ h, atPos log (posOf lines k) = [h] ∧ IsHit id g j v h
  no : ∀ (k : Nat), k < lines.length → (∀ g j v, reads[k]? = some (some (g, j, v)) → ¬ (below g ∧ Counts reads g j k)) →
    atPos log (posOf lines k) = []

/-! ## Listings -/

mutual
theorem listing_prefix (p : List Str) (T : TGroup) (x) (h : x ∈ T.listing p) : (p ++ [T.name]) <+: x.1 := by
  match T with
  | .mk n ls pad cs tail =>
    simp only [TGroup.listing, List.mem_cons] at h
    rcases h with rfl | h
    · exact List.prefix_refl _
    · obtain ⟨m, _, hm⟩ := listings_prefix (p ++ [n]) cs x h
      exact (List.prefix_append (p ++ [n]) [m]).trans hm
theorem listings_prefix (p : List Str) (cs : List TGroup) (x) (h : x ∈ listings p cs) : ∃ n ∈ cs.map TGroup.name, (p ++ [n]) <+: x.1 := by
  match cs with
  | [] => cases h
  | c :: cs =>
    simp only [listings, List.mem_append] at h
    rcases h with h | h
    · exact ⟨c.name, by simp, listing_prefix p c x h⟩
    · obtain ⟨n, h1, h2⟩ := listings_prefix p cs x h
      exact ⟨n, by simp [h1], h2⟩
end

theorem snoc_prefix_inj (p : List Str) (n m : Str) (g : List Str) (h1 : (p ++ [n]) <+: g) (h2 : (p ++ [m]) <+: g) : n = m := by
  obtain ⟨a, rfl⟩ := h1
  obtain ⟨b, e⟩ := h2
  simp only [List.append_assoc, List.append_cancel_left_eq, List.singleton_append, List.cons.injEq] at e
  exact e.1.symm

/-! ## The search -/

section
variable (mf : MatchFns) (id : List Str → GId) (all : List (List Str × List TplLine)) (hall : ∀ x ∈ all, ∀ l ∈ x.2, l.OK)
  (lines : List Str) (hne : lines ≠ []) (hl : ∀ t ∈ lines, '\n' ∉ t) (reads : Reading) (hr : All2 (ReadsIn all) lines reads) (env : Env)

theorem atPos_tplLog_low (info : GInfo) (j : Nat) (l : TplLine) (i : Nat) (hi : i ≤ lines.length) (ms : List Re.Match) (k : Nat) (hk : k < i) :
    atPos (tplLog info j l (posOf lines i) ms) (posOf lines k) = [] := by
  simp only [atPos, tplLog, List.map_eq_nil_iff, List.filter_eq_nil_iff, List.mem_map]
  rintro _ ⟨m, _, rfl⟩
  have := posOf_lt lines k i hk hi
  simp; omega

include hl hall hr

/-- the log of one line of the group `q`, searched from line `i` on -/
theorem lineLog_at (info : GInfo) (q : List Str) (ls : List TplLine) (hq : (q, ls) ∈ all) (j j' : Nat) (l : TplLine) (hj : ls[j]? = some l)
    (i : Nat) (hi : i ≤ lines.length) (k : Nat) (hk : k < lines.length) :
    (∀ v, reads[k]? = some (some (q, j, v)) → i ≤ k → (∀ ls', (q, ls') ∈ all → ls' = ls) →
      atPos (tplLog info j' l (posOf lines i) (finditer (TplRe l) (nlText (lines.drop i)))) (posOf lines k) = [⟨info, rxAt j' l, some (recOf v)⟩]) ∧
    ((∀ v, reads[k]? ≠ some (some (q, j, v))) ∨ k < i →
      atPos (tplLog info j' l (posOf lines i) (finditer (TplRe l) (nlText (lines.drop i)))) (posOf lines k) = []) := by
  have ho := hall _ hq l (List.mem_of_getElem? hj)
  have hk0 : lines[k]? = some lines[k] := List.getElem?_eq_getElem hk
  obtain ⟨r, hrk, hread⟩ := all2_get hr k lines[k] hk0
  have hld : ∀ t ∈ lines.drop i, '\n' ∉ t := fun t ht => hl t (List.mem_of_mem_drop ht)
  have hpos : i ≤ k → posOf lines k = posOf lines i + posOf (lines.drop i) (k - i) := by
    intro hik
    rw [← posOf_add lines i (k - i) (by omega)]; congr 1; omega
  have hk' : i ≤ k → (lines.drop i)[k - i]? = some lines[k] := by
    intro hik
    rw [List.getElem?_drop, show i + (k - i) = k by omega]; exact hk0
  constructor
  · intro v hv hik hun
    rw [hrk] at hv
    simp only [Option.some.injEq] at hv
    subst hv
    obtain ⟨⟨ls', l', h1, h2, h3⟩, _⟩ := hread
    have := hun ls' h1
    subst this
    rw [hj] at h2
    cases h2
    rw [hpos hik]
    exact (atPos_tplLog info j' l ho (posOf lines i) (lines.drop i) hld (k - i) _ (hk' hik)).1 v h3
  · intro h
    by_cases hki : k < i
    · exact atPos_tplLog_low lines info j' l i hi _ k hki
    · have hik : i ≤ k := by omega
      rcases h with h | h
      · rw [hpos hik]
        refine (atPos_tplLog info j' l ho (posOf lines i) (lines.drop i) hld (k - i) _ (hk' hik)).2 ?_
        intro v hf
        cases r with
        | none => exact hread q ls hq l (List.mem_of_getElem? hj) v hf
        | some r =>
          obtain ⟨g, j2, v2⟩ := r
          obtain ⟨_, hun⟩ := hread
          obtain ⟨rfl, rfl⟩ := hun q ls j l v hq hj hf
          exact h v2 hrk
      · omega

include hne

mutual
/-- the search of one group -/
theorem runRe_tree (p : List Str) (T : TGroup) (hT : T.OK) (G : Grp) (hb : Built id p T G) (i : Nat) (hi : i ≤ lines.length)
    (hf : found reads p = some i) (hin : ∀ x ∈ T.listing p, x ∈ all) (hsub : ∀ x ∈ all, (p ++ [T.name]) <+: x.1 → x ∈ T.listing p) :
    ∃ log, (∀ r, runRe mf (dataText (join c!"\n" lines)) G (posOf lines i) none env r = .ok (env, logDict r log)) ∧
      LogOk id lines reads (fun g => (p ++ [T.name]) <+: g) log := by
  match T, G with
  | .mk n ls pad cs tail, .mk info st nm en hd gs =>
    obtain ⟨hinfo, ⟨l, tl, rfl, rfl, rfl⟩, rfl, rfl, hbc⟩ := hb
    obtain ⟨hn, hls, hlo, hpad, htail, hcs⟩ := hT
    simp only [TGroup.name] at hsub ⊢
    have hq : (p ++ [n], l :: tl) ∈ all := hin _ (by simp [TGroup.listing])
    have hlen := all2_len hr
    -- the lines of this group
    have hun : ∀ ls', (p ++ [n], ls') ∈ all → ls' = l :: tl := by
      intro ls' h
      have := hsub _ h (List.prefix_refl _)
      simp only [TGroup.listing, List.mem_cons, Prod.mk.injEq, true_and] at this
      rcases this with h | h
      · exact h
      · obtain ⟨m, _, hm⟩ := listings_prefix _ _ _ h
        have := hm.length_le
        simp at this
    have hsl := slice_nl lines hne i hi
    have e0 : (rxAt 0 l).re = TplRe l := rfl
    have hol := hlo l (by simp)
    have hld : ∀ i, ∀ t ∈ lines.drop i, '\n' ∉ t := fun i t ht => hl t (List.mem_of_mem_drop ht)
    -- a fitting line is read as a start
    have hfit : ∀ (k : Nat) t v, lines[k]? = some t → l.Fits t v → ∃ v', reads[k]? = some (some (p ++ [n], 0, v')) := by
      intro k t v hk hv
      obtain ⟨r, hrk, hread⟩ := all2_get hr k t hk
      cases r with
      | none => exact absurd hv (hread _ _ hq l (by simp) v)
      | some r =>
        obtain ⟨g, j2, v2⟩ := r
        obtain ⟨rfl, rfl⟩ := hread.2 _ _ 0 l v hq (by simp) hv
        exact ⟨v2, hrk⟩
    cases hfq : found reads (p ++ [n]) with
    | none =>
      have hfs : firstStart reads i (p ++ [n]) = none := by rw [found_snoc, hf] at hfq; exact hfq
      have hno := firstStart_none _ _ _ hfs
      have hfi : finditer (TplRe l) (nlText (lines.drop i)) = [] := by
        cases hfi : finditer (TplRe l) (nlText (lines.drop i)) with
        | nil => rfl
        | cons m ms =>
          obtain ⟨k, t', hk, _, hf'⟩ := (tplRe_finditer l hol (lines.drop i) (hld i) m.start m.caps).1 ⟨m, by rw [hfi]; simp, rfl, rfl⟩
          rw [List.getElem?_drop] at hk
          obtain ⟨v', hv'⟩ := hfit _ _ _ hk hf'
          exact absurd hv' (hno (i + k) v' (by omega))
      refine ⟨[], ?_, ?_, ?_, ?_⟩
      · intro r
        have hdef : ∀ (cs : List TGroup) (gs : List Grp), BuiltAll id (p ++ [n]) cs gs →
            runDefaultChildren mf (dataText (join c!"\n" lines)) false gs (posOf lines i) none env r = .ok (env, r) := by
          intro cs
          induction cs with
          | nil => intro gs h; rw [BuiltAll] at h; subst h; rfl
          | cons c cs ih =>
            rintro gs ⟨g, gs', rfl, h1, h2⟩
            have hd : g.hasDefault = false := by
              cases c with
              | mk n' ls' pad' cs' tail' =>
                cases g with
                | mk => exact h1.2.2.2.1
            simp only [runDefaultChildren, hd, Bool.or_false, Bool.false_eq_true, if_false, pure_ok, ok_bind, ih gs' h2]
        simp only [runRe, runStarts, hsl, e0, hfi, pure_ok, ok_bind, Bool.false_eq_true, if_false, List.isEmpty_cons, hdef cs gs hbc]
        rfl
      · simp
      · intro k g j v hk hbelow hc
        exfalso
        obtain ⟨m, hm, hmk⟩ := hc
        by_cases hgq : g = p ++ [n]
        · subst hgq
          by_cases hj : j = 0
          · subst hj
            simp only [if_true, List.dropLast_concat, hf, Option.some.injEq] at hm
            subst hm
            exact hno k v hmk hk
          · simp only [hj, if_false, hfq] at hm; cases hm
        · have hp' : (p ++ [n]) <+: (if j = 0 then g.dropLast else g) := by
            split
            · obtain ⟨r, rfl⟩ := hbelow
              have : r ≠ [] := by rintro rfl; simp at hgq
              rw [List.dropLast_append_of_ne_nil this]
              exact List.prefix_append _ _
            · exact hbelow
          rw [found_none_prefix _ _ _ hfq hp'] at hm
          cases hm
      · intro k _ _; rfl
    | some s =>
      have hfs : firstStart reads i (p ++ [n]) = some s := by rw [found_snoc, hf] at hfq; exact hfq
      obtain ⟨his, ⟨v0, hs0⟩, hmin⟩ := firstStart_some _ _ _ _ hfs
      have hslt : s < lines.length := by have := (List.getElem?_eq_some_iff.1 hs0).1; omega
      have hts : lines[s]? = some lines[s] := List.getElem?_eq_getElem hslt
      -- it fits
      have hfs0 : l.Fits lines[s] v0 := by
        obtain ⟨r, hrk, hread⟩ := all2_get hr s _ hts
        rw [hs0] at hrk
        cases hrk
        obtain ⟨⟨ls', l', h1, h2, h3⟩, _⟩ := hread
        have := hun ls' h1
        subst this
        simp only [List.getElem?_cons_zero, Option.some.injEq] at h2
        subst h2
        exact h3
      have hps : posOf lines s = posOf lines i + posOf (lines.drop i) (s - i) := by
        rw [← posOf_add lines i (s - i) (by omega)]; congr 1; omega
      have hts' : (lines.drop i)[s - i]? = some lines[s] := by
        rw [List.getElem?_drop, show i + (s - i) = s by omega]; exact hts
      obtain ⟨m, hm, hmp, hmc⟩ := (tplRe_finditer l hol (lines.drop i) (hld i) (posOf (lines.drop i) (s - i)) v0).2 ⟨s - i, _, hts', rfl, hfs0⟩
      obtain ⟨clog, hcrun, hclog⟩ := runChildren_tree (p ++ [n]) cs hcs gs hbc s (by omega) hfq
        (fun x hx => hin x (by simp [TGroup.listing, hx]))
        (by
          intro x hx n' _ hpre
          have := hsub x hx ((List.prefix_append _ _).trans hpre)
          simp only [TGroup.listing, List.mem_cons] at this
          rcases this with rfl | h
          · have := hpre.length_le
            simp at this
          · exact h)
      have hrun : ∀ r, runRe mf (dataText (join c!"\n" lines)) (.mk info [rxAt 0 l] (tl.map tplRx) [] false gs) (posOf lines i) none env r =
          .ok (env, logDict r (tplLog info 0 l (posOf lines i) (finditer (TplRe l) (nlText (lines.drop i))) ++
            (normLog info (posOf lines s) (nlText (lines.drop s)) tl ++ clog))) := by
        intro r
        cases hfi : finditer (TplRe l) (nlText (lines.drop i)) with
        | nil => rw [hfi] at hm; cases hm
        | cons m0 ms =>
          have hm0 : posOf lines i + m0.start = posOf lines s := by
            have h1 := finditer_head_min _ _ _ _ hfi m hm
            obtain ⟨k, t', hk, hp, hf'⟩ := (tplRe_finditer l hol (lines.drop i) (hld i) m0.start m0.caps).1 ⟨m0, by rw [hfi]; simp, rfl, rfl⟩
            rw [List.getElem?_drop] at hk
            obtain ⟨v', hv'⟩ := hfit _ _ _ hk hf'
            have h2 := hmin (i + k) v' (by omega) hv'
            have hklt : i + k < lines.length := (List.getElem?_eq_some_iff.1 hk).1
            have hpk := posOf_add lines i k (by omega)
            rcases Nat.lt_or_eq_of_le h2 with h2 | h2
            · have := posOf_lt lines s (i + k) h2 (by omega)
              omega
            · rw [h2]; omega
          have hst := checkMatches_tpl mf info l hol 0 (posOf lines i) (m0 :: ms)
            (fun m hm => tpl_caps l hol (lines.drop i) (hld i) m (by rw [hfi]; exact hm)) env r
          have hnorm := runNormals_tpl mf (dataText (join c!"\n" lines)) info (posOf lines s) (lines.drop s) (hld s) (slice_nl lines hne s (by omega)) tl
            (fun l' h' => hlo l' (by simp [h'])) env (logDict r (tplLog info 0 l (posOf lines i) (m0 :: ms)))
          simp only [runRe, runStarts, hsl, e0, hfi, hst, ok_bind, pure_ok, runEnds, hm0, hnorm, hcrun]
          rw [logDict_append, logDict_append]
      refine ⟨_, hrun, ?_, ?_, ?_⟩
      · -- positions
        intro x hx
        simp only [List.mem_append] at hx
        have hline : ∀ i ≤ lines.length, ∀ j l', l'.OK → x ∈ tplLog info j l' (posOf lines i) (finditer (TplRe l') (nlText (lines.drop i))) →
            ∃ k, k < lines.length ∧ x.1 = posOf lines k := by
          intro i hi j l' ho' hx
          simp only [tplLog, List.mem_map] at hx
          obtain ⟨m, hm, rfl⟩ := hx
          obtain ⟨k, t, hk, hpk, _⟩ := (tplRe_finditer l' ho' (lines.drop i) (hld i) m.start m.caps).1 ⟨m, hm, rfl, rfl⟩
          rw [List.getElem?_drop] at hk
          refine ⟨i + k, (List.getElem?_eq_some_iff.1 hk).1, ?_⟩
          rw [posOf_add lines i k (by omega)]
          simp only; omega
        rcases hx with hx | hx | hx
        · exact hline i hi 0 l hol hx
        · simp only [normLog, List.mem_flatMap] at hx
          obtain ⟨l', hl', hx⟩ := hx
          exact hline s (by omega) 1 l' (hlo l' (by simp [hl'])) hx
        · exact hclog.pos x hx
      · -- what counts
        intro k g j v hk hbelow hc
        have hklt : k < lines.length := by have := (List.getElem?_eq_some_iff.1 hk).1; omega
        obtain ⟨hs1, hs2⟩ := lineLog_at all hall lines hl reads hr info (p ++ [n]) (l :: tl) hq 0 0 l (by simp) i hi k hklt
        have hn1 := fun (j : Nat) l' (hj : tl[j]? = some l') => lineLog_at all hall lines hl reads hr info (p ++ [n]) (l :: tl) hq (j + 1) 1 l'
          (by simpa using hj) s (by omega) k hklt
        rw [atPos_append, atPos_append, atPos_normLog]
        by_cases hgq : g = p ++ [n]
        · subst hgq
          have hch : atPos clog (posOf lines k) = [] := by
            apply hclog.no k hklt
            rintro g' j' v' hk' ⟨⟨m', _, hm'⟩, _⟩
            rw [hk] at hk'
            simp only [Option.some.injEq, Prod.mk.injEq] at hk'
            rw [← hk'.1] at hm'
            have := hm'.length_le
            simp at this
          rw [hch, List.append_nil]
          obtain ⟨m', hm', hmk⟩ := hc
          cases j with
          | zero =>
            simp only [if_true, List.dropLast_concat, hf, Option.some.injEq] at hm'
            subst hm'
            refine ⟨⟨info, rxAt 0 l, some (recOf v)⟩, ?_, hinfo, rfl, tplRx_isLine l, rfl⟩
            rw [hs1 v hk hmk hun]
            have : tl.flatMap (fun l' => atPos (tplLog info 1 l' (posOf lines s) (finditer (TplRe l') (nlText (lines.drop s)))) (posOf lines k)) = [] := by
              rw [List.flatMap_eq_nil_iff]
              intro l' hl'
              obtain ⟨j, hj⟩ := List.getElem?_of_mem hl'
              apply (hn1 j l' hj).2
              left
              intro v' hv'
              rw [hk] at hv'
              simp at hv'
            rw [this]; rfl
          | succ j =>
            simp only [Nat.add_eq_zero_iff, Nat.one_ne_zero, and_false, if_false, hfq, Option.some.injEq] at hm'
            subst hm'
            have hst0 := hs2 (Or.inl (fun v' hv' => by rw [hk] at hv'; simp at hv'))
            obtain ⟨l', hj'⟩ : ∃ l', tl[j]? = some l' := by
              obtain ⟨r, hrk, hread⟩ := all2_get hr k _ (List.getElem?_eq_getElem hklt)
              rw [hk] at hrk
              cases hrk
              obtain ⟨⟨ls', l', h1, h2, h3⟩, _⟩ := hread
              have := hun ls' h1
              subst this
              exact ⟨l', by simpa using h2⟩
            refine ⟨⟨info, rxAt 1 l', some (recOf v)⟩, ?_, hinfo, ?_, tplRx_isLine l', rfl⟩
            · rw [hst0, List.nil_append, flatMap_one tl _ j l' hj']
              · exact (hn1 j l' hj').1 v hk hmk hun
              · intro i2 l2 hi2 hne2
                by_cases he : i2 = j
                · exact he
                · exact absurd ((hn1 i2 l2 hi2).2 (Or.inl (fun v' hv' => by
                    rw [hk] at hv'
                    simp only [Option.some.injEq, Prod.mk.injEq, true_and] at hv'
                    omega))) hne2
            · have := tplRx_action l'
              simpa [rxAt] using this
        · -- a group inside
          have h1 := hs2 (Or.inl (fun v' hv' => by
            rw [hk] at hv'
            simp only [Option.some.injEq, Prod.mk.injEq] at hv'
            exact hgq hv'.1))
          have h2 : tl.flatMap (fun l' => atPos (tplLog info 1 l' (posOf lines s) (finditer (TplRe l') (nlText (lines.drop s)))) (posOf lines k)) = [] := by
            rw [List.flatMap_eq_nil_iff]
            intro l' hl'
            obtain ⟨j, hj⟩ := List.getElem?_of_mem hl'
            apply (hn1 j l' hj).2
            left
            intro v' hv'
            rw [hk] at hv'
            simp only [Option.some.injEq, Prod.mk.injEq] at hv'
            exact hgq hv'.1
          rw [h1, h2, List.nil_append, List.nil_append]
          refine hclog.yes k g j v hk ?_ hc
          obtain ⟨r, hrk, hread⟩ := all2_get hr k _ (List.getElem?_eq_getElem hklt)
          rw [hk] at hrk
          cases hrk
          obtain ⟨⟨ls', l', h1, _, _⟩, _⟩ := hread
          have := hsub _ h1 hbelow
          simp only [TGroup.listing, List.mem_cons, Prod.mk.injEq] at this
          rcases this with ⟨h, _⟩ | h
          · exact absurd h hgq
          · exact listings_prefix _ _ _ h
      · -- what does not count
        intro k hklt hno
        obtain ⟨hs1, hs2⟩ := lineLog_at all hall lines hl reads hr info (p ++ [n]) (l :: tl) hq 0 0 l (by simp) i hi k hklt
        have hn1 := fun (j : Nat) l' (hj : tl[j]? = some l') => lineLog_at all hall lines hl reads hr info (p ++ [n]) (l :: tl) hq (j + 1) 1 l'
          (by simpa using hj) s (by omega) k hklt
        rw [atPos_append, atPos_append, atPos_normLog]
        have h1 := hs2 (by
          by_cases hki : k < i
          · exact Or.inr hki
          · left
            intro v hv
            exact hno _ _ _ hv ⟨List.prefix_refl _, i, by simpa using hf, by omega⟩)
        have h2 : tl.flatMap (fun l' => atPos (tplLog info 1 l' (posOf lines s) (finditer (TplRe l') (nlText (lines.drop s)))) (posOf lines k)) = [] := by
          rw [List.flatMap_eq_nil_iff]
          intro l' hl'
          obtain ⟨j, hj⟩ := List.getElem?_of_mem hl'
          apply (hn1 j l' hj).2
          by_cases hks : k < s
          · exact Or.inr hks
          · left
            intro v hv
            exact hno _ _ _ hv ⟨List.prefix_refl _, s, by simpa using hfq, by omega⟩
        have h3 : atPos clog (posOf lines k) = [] := by
          apply hclog.no k hklt
          rintro g j v hk ⟨⟨m', _, hm'⟩, hc⟩
          exact hno g j v hk ⟨(List.prefix_append _ _).trans hm', hc⟩
        rw [h1, h2, h3]; rfl
/-- the search of child groups -/
theorem runChildren_tree (p : List Str) (cs : List TGroup) (hcs : groupsOK cs) (gs : List Grp) (hb : BuiltAll id p cs gs) (i : Nat) (hi : i ≤ lines.length)
    (hf : found reads p = some i) (hin : ∀ x ∈ listings p cs, x ∈ all) (hsub : ∀ x ∈ all, ∀ n ∈ cs.map TGroup.name, (p ++ [n]) <+: x.1 → x ∈ listings p cs) :
    ∃ log, (∀ r, runChildren mf (dataText (join c!"\n" lines)) gs (posOf lines i) none env r = .ok (env, logDict r log)) ∧
      LogOk id lines reads (fun g => ∃ n ∈ cs.map TGroup.name, (p ++ [n]) <+: g) log := by
  match cs with
  | [] =>
    rw [BuiltAll] at hb
    subst hb
    exact ⟨[], fun r => rfl, by simp, by rintro k g j v _ ⟨n, h, _⟩; simp at h, fun k _ _ => rfl⟩
  | c :: cs =>
    obtain ⟨g, gs', rfl, hb1, hb2⟩ := hb
    obtain ⟨h1, h2, h3⟩ := hcs
    have hlen := all2_len hr
    obtain ⟨log1, hr1, hl1⟩ := runRe_tree p c h1 g hb1 i hi hf (fun x hx => hin x (by simp [listings, hx])) (by
      intro x hx hpre
      have := hsub x hx c.name (by simp) hpre
      simp only [listings, List.mem_append] at this
      rcases this with h | h
      · exact h
      · obtain ⟨m, hm, hmp⟩ := listings_prefix _ _ _ h
        rw [← snoc_prefix_inj p _ _ _ hpre hmp] at hm
        exact absurd hm h2)
    obtain ⟨log2, hr2, hl2⟩ := runChildren_tree p cs h3 gs' hb2 i hi hf (fun x hx => hin x (by simp [listings, hx])) (by
      intro x hx n hn hpre
      have := hsub x hx n (by simp only [List.map_cons, List.mem_cons]; exact Or.inr hn) hpre
      simp only [listings, List.mem_append] at this
      rcases this with h | h
      · have := snoc_prefix_inj p _ _ _ hpre (listing_prefix _ _ _ h)
        subst this
        exact absurd hn h2
      · exact h)
    refine ⟨log1 ++ log2, ?_, ?_, ?_, ?_⟩
    · intro r
      simp only [runChildren, hr1, ok_bind, hr2]
      rw [logDict_append]
    · intro x hx
      rcases List.mem_append.1 hx with hx | hx
      · exact hl1.pos x hx
      · exact hl2.pos x hx
    · rintro k g j v hk ⟨n, hn, hpre⟩ hc
      have hklt : k < lines.length := by have := (List.getElem?_eq_some_iff.1 hk).1; omega
      rw [atPos_append]
      by_cases hnc : n = c.name
      · subst hnc
        have : atPos log2 (posOf lines k) = [] := by
          apply hl2.no k hklt
          rintro g' j' v' hk' ⟨⟨m, hm, hmp⟩, _⟩
          rw [hk] at hk'
          simp only [Option.some.injEq, Prod.mk.injEq] at hk'
          rw [← hk'.1] at hmp
          rw [← snoc_prefix_inj p _ _ _ hpre hmp] at hm
          exact h2 hm
        rw [this, List.append_nil]
        exact hl1.yes k g j v hk hpre hc
      · have hn' : n ∈ cs.map TGroup.name := by
          rcases List.mem_cons.1 hn with h | h
          · exact absurd h hnc
          · exact h
        have : atPos log1 (posOf lines k) = [] := by
          apply hl1.no k hklt
          rintro g' j' v' hk' ⟨hmp, _⟩
          rw [hk] at hk'
          simp only [Option.some.injEq, Prod.mk.injEq] at hk'
          rw [← hk'.1] at hmp
          exact hnc (snoc_prefix_inj p _ _ _ hpre hmp)
        rw [this, List.nil_append]
        exact hl2.yes k g j v hk ⟨n, hn', hpre⟩ hc
    · intro k hklt hno
      rw [atPos_append, hl1.no k hklt (fun g j v hk h => hno g j v hk ⟨⟨c.name, by simp, h.1⟩, h.2⟩),
        hl2.no k hklt (fun g j v hk h => by
          obtain ⟨⟨n, hn, hp⟩, hc⟩ := h
          exact hno g j v hk ⟨⟨n, by simp only [List.map_cons, List.mem_cons]; exact Or.inr hn, hp⟩, hc⟩)]
      rfl
end
end

end TTP
