import Verif.Model.Match
import Verif.Proofs.PyStr
import Verif.Spec.Match
/-!
# Proofs about match functions
-/

namespace TTP
open Py Spec

namespace MatchFn

theorem contains_char (s : Str) (c : Char) : Py.contains s [c] = decide (c ∈ s) := by
  induction s with
  | nil => simp [Py.contains]
  | cons d ds ih =>
    rw [Py.contains, ih]
    simp only [List.isPrefixOf, Bool.and_true, List.mem_cons]
    by_cases h : c = d <;> simp [h]

/-! ## unrange -/

/-- pieces between range characters, as lists of words -/
def chunks : List RItem → List (List Str)
  | [] => [[]]
  | .word w :: rest =>
    match chunks rest with
    | [] => [[w]]
    | c :: cs => (w :: c) :: cs
  | .range a b :: rest =>
    match chunks rest with
    | [] => [[natStr a], [natStr b]]
    | c :: cs => [natStr a] :: (natStr b :: c) :: cs

theorem chunks_ne_nil (items : List RItem) : chunks items ≠ [] := by
  cases items with
  | nil => simp [chunks]
  | cons x rest =>
    cases x <;> simp only [chunks] <;> split <;> simp

theorem chunks_head (items : List RItem) (h : items ≠ []) : ∀ c ∈ chunks items, c ≠ [] := by
  induction items with
  | nil => exact absurd rfl h
  | cons x rest ih =>
    cases rest with
    | nil => cases x <;> simp [chunks]
    | cons y rest =>
      have ih := ih (by simp)
      cases x with
      | word w =>
        rw [chunks]
        cases hc : chunks (y :: rest) with
        | nil => simp
        | cons c cs =>
          rw [hc] at ih
          intro d hd
          rcases List.mem_cons.1 hd with rfl | hd
          · simp
          · exact ih d (List.mem_cons_of_mem _ hd)
      | range a b =>
        rw [chunks]
        cases hc : chunks (y :: rest) with
        | nil => simp
        | cons c cs =>
          rw [hc] at ih
          intro d hd
          rcases List.mem_cons.1 hd with rfl | hd
          · simp
          · rcases List.mem_cons.1 hd with rfl | hd
            · simp
            · exact ih d (List.mem_cons_of_mem _ hd)

theorem splitC_prefix (sep : Char) (w s h : Str) (t : List Str) (hw : sep ∉ w) (hs : splitC sep s = h :: t) :
    splitC sep (w ++ s) = (w ++ h) :: t := by
  induction w with
  | nil => simpa using hs
  | cons c cs ih =>
    have h1 : c ≠ sep := fun e => hw (by simp [e])
    have h2 : sep ∉ cs := fun e => hw (by simp [e])
    rw [List.cons_append, splitC, if_neg h1, ih h2]; rfl

theorem RItem.text_ne (r j : Char) (x : RItem) (h : x.Ok r j) : x.text r ≠ [] := by
  cases x with
  | word w => exact h.1
  | range a b => simp [RItem.text]

theorem split_text (r j : Char) (hr : isDigit r = false) (hrj : r ≠ j) (items : List RItem) (hne : items ≠ [])
    (hok : ∀ x ∈ items, x.Ok r j) :
    splitC r (join [j] (items.map (RItem.text r))) = (chunks items).map (join [j]) := by
  induction items with
  | nil => exact absurd rfl hne
  | cons x rest ih =>
    cases rest with
    | nil =>
      cases x with
      | word w =>
        have := (hok (.word w) (by simp)).2.1
        simp only [List.map_cons, List.map_nil, join, RItem.text, chunks]
        exact splitC_self r w this
      | range a b =>
        simp only [List.map_cons, List.map_nil, join, RItem.text, chunks]
        rw [splitC_append r _ (natStr_no a r hr), splitC_self r _ (natStr_no b r hr)]
    | cons y rest =>
      have ih := ih (by simp) (fun x hx => hok x (List.mem_cons_of_mem _ hx))
      have hj : r ∉ ([j] : Str) := by simpa using hrj
      have hcne := chunks_head (y :: rest) (by simp)
      rw [List.map_cons, join_cons _ _ _ (by simp)]
      cases hc : chunks (y :: rest) with
      | nil => exact absurd hc (chunks_ne_nil _)
      | cons c cs =>
        rw [hc] at ih hcne
        rw [List.map_cons] at ih
        have hcn := hcne c (by simp)
        cases x with
        | word w =>
          have hw := (hok (.word w) (by simp)).2.1
          rw [chunks, hc]
          rw [show (RItem.word w).text r = w from rfl, List.map_cons, List.map_cons]
          rw [splitC_prefix r (w ++ [j]) _ _ _ (by simp [hw, hrj]) ih, join_cons _ _ _ hcn]
        | range a b =>
          rw [chunks, hc]
          rw [show (RItem.range a b).text r = natStr a ++ r :: natStr b from rfl, List.map_cons, List.map_cons, List.map_cons]
          rw [show natStr a ++ r :: natStr b ++ [j] ++ join [j] (RItem.text r y :: List.map (RItem.text r) rest)
              = natStr a ++ r :: ((natStr b ++ [j]) ++ join [j] (RItem.text r y :: List.map (RItem.text r) rest)) by simp,
            splitC_append r _ (natStr_no a r hr),
            splitC_prefix r (natStr b ++ [j]) _ _ _ (by simp [hrj, natStr_no b r hr]) ih, join_cons _ _ _ hcn]
          simp [join]

theorem chunk_words (r j : Char) (hj : isDigit j = false) (items : List RItem)
    (hok : ∀ x ∈ items, x.Ok r j) : ∀ c ∈ chunks items, ∀ w ∈ c, w ≠ [] ∧ j ∉ w := by
  induction items with
  | nil => simp [chunks]
  | cons x rest ih =>
    have ih := ih (fun x hx => hok x (List.mem_cons_of_mem _ hx))
    cases x with
    | word w =>
      have hw := hok (.word w) (by simp)
      rw [chunks]
      cases hc : chunks rest with
      | nil => exact absurd hc (chunks_ne_nil _)
      | cons c cs =>
        rw [hc] at ih
        intro d hd v hv
        simp only at hd
        rcases List.mem_cons.1 hd with rfl | hd
        · rcases List.mem_cons.1 hv with rfl | hv
          · exact ⟨hw.1, hw.2.2⟩
          · exact ih c (by simp) v hv
        · exact ih d (List.mem_cons_of_mem _ hd) v hv
    | range a b =>
      rw [chunks]
      cases hc : chunks rest with
      | nil => exact absurd hc (chunks_ne_nil _)
      | cons c cs =>
        rw [hc] at ih
        intro d hd v hv
        simp only at hd
        rcases List.mem_cons.1 hd with rfl | hd
        · rcases List.mem_cons.1 hv with rfl | hv
          · exact ⟨natStr_ne_nil a, natStr_no a j hj⟩
          · cases hv
        · rcases List.mem_cons.1 hd with rfl | hd
          · rcases List.mem_cons.1 hv with rfl | hv
            · exact ⟨natStr_ne_nil b, natStr_no b j hj⟩
            · exact ih c (by simp) v hv
          · exact ih d (List.mem_cons_of_mem _ hd) v hv

/-- words of a piece -/
theorem piece_words (j : Char) (c : List Str) (hne : c ≠ []) (h : ∀ w ∈ c, w ≠ [] ∧ j ∉ w) :
    (split [j] (join [j] c)).filter (fun w => !w.isEmpty) = c := by
  rw [split_char, splitC_join j c hne (fun w hw => (h w hw).2), List.filter_eq_self]
  intro w hw
  have := (h w hw).1
  cases w with
  | nil => exact absurd rfl this
  | cons a b => rfl

theorem intStr_ofNat (n : Nat) : intStr (n : Int) = natStr n := rfl

theorem pyRange_tail (a b : Nat) (h : a < b) : ((pyRange (a : Int) (b : Int)).map intStr).drop 1 = (List.range' (a + 1) (b - a - 1)).map natStr := by
  unfold pyRange
  have h1 : ((b : Int) - (a : Int)).toNat = (b - a - 1) + 1 := by omega
  rw [h1, List.range_succ_eq_map]
  simp only [List.map_cons, List.drop_succ_cons, List.drop_zero, List.map_map]
  rw [List.range'_eq_map_range, List.map_map]
  apply List.map_congr_left
  intro i _
  show intStr ((a : Int) + ((i + 1 : Nat) : Int)) = natStr (a + 1 + i)
  rw [show (a : Int) + ((i + 1 : Nat) : Int) = ((a + 1 + i : Nat) : Int) by omega]
  rfl

theorem unrangeLoop_chunks (r j : Char) (hj : isDigit j = false) (items : List RItem)
    (hok : ∀ x ∈ items, x.Ok r j) (acc c : List Str) (cs : List (List Str)) (hc : chunks items = c :: cs) :
    unrangeLoop [j] (cs.map (join [j])) (acc ++ c) = .ok (some (acc ++ items.flatMap RItem.expanded)) := by
  induction items generalizing acc c cs with
  | nil =>
    simp only [chunks, List.cons.injEq] at hc
    obtain ⟨rfl, rfl⟩ := hc
    rfl
  | cons x rest ih =>
    have hok' : ∀ x ∈ rest, x.Ok r j := fun x hx => hok x (List.mem_cons_of_mem _ hx)
    cases hr : chunks rest with
    | nil => exact absurd hr (chunks_ne_nil _)
    | cons d ds =>
      cases x with
      | word w =>
        rw [chunks, hr] at hc
        simp only [List.cons.injEq] at hc
        obtain ⟨rfl, rfl⟩ := hc
        have := ih hok' (acc ++ [w]) d ds hr
        simpa [RItem.expanded] using this
      | range a b =>
        have hab : a < b := hok (.range a b) (by simp)
        have hw := chunk_words r j hj (.range a b :: rest) hok
        rw [chunks, hr] at hc hw
        simp only [List.cons.injEq] at hc
        obtain ⟨rfl, rfl⟩ := hc
        rw [List.map_cons, unrangeLoop]
        have hpw := piece_words j (natStr b :: d) (by simp) (hw _ (by simp))
        have hstep : unrangeItem [j] (acc ++ [natStr a]) (join [j] (natStr b :: d))
            = .ok (some (acc ++ (List.range' a (b + 1 - a)).map natStr ++ d)) := by
          unfold unrangeItem splitE
          simp only [List.isEmpty_cons, Bool.false_eq_true, if_false]
          show (match (acc ++ [natStr a]).getLast? with
            | none => _
            | some last => _) = _
          rw [List.getLast?_concat]
          simp only [intOfStr_natStr]
          rw [hpw]
          simp only [intOfStr_natStr]
          rw [pyRange_tail a b hab]
          have : b + 1 - a = (b - a - 1) + 2 := by omega
          rw [this, List.range'_succ, List.range'_1_concat]
          have e : a + 1 + (b - a - 1) = b := by omega
          simp [e, pure, Except.pure]
        rw [hstep]
        have := ih hok' (acc ++ (List.range' a (b + 1 - a)).map natStr) d ds hr
        simp only [bind, Except.bind]
        rw [this]
        simp [RItem.expanded]

theorem unrange_items (r j : Char) (hr : isDigit r = false) (hj : isDigit j = false) (hrj : r ≠ j) (items : List RItem)
    (hok : ∀ x ∈ items, x.Ok r j) :
    unrange (join [j] (items.map (RItem.text r))) [r] [j] = .ok (join [j] (items.flatMap RItem.expanded)) := by
  unfold unrange
  rw [contains_char]
  by_cases hm : r ∈ join [j] (items.map (RItem.text r))
  · simp only [hm, decide_true, Bool.not_true, Bool.false_eq_true, if_false]
    have hne : items ≠ [] := by rintro rfl; simp [join] at hm
    unfold splitE
    simp only [List.isEmpty_cons, Bool.false_eq_true, if_false, split_char]
    rw [split_text r j hr hrj items hne hok]
    cases hc : chunks items with
    | nil => exact absurd hc (chunks_ne_nil _)
    | cons c cs =>
      have hcn := chunks_head items hne c (by simp [hc])
      have hw := chunk_words r j hj items hok c (by simp [hc])
      have hfirst : unrangeItem [j] [] (join [j] c) = .ok (some c) := by
        unfold unrangeItem splitE
        simp only [List.isEmpty_cons, Bool.false_eq_true, if_false]
        show (Except.ok (some _) : PyM _) = _
        rw [piece_words j c hcn hw]
      have hl := unrangeLoop_chunks r j hj items hok [] c cs hc
      simp only [List.nil_append] at hl
      simp only [List.map_cons, unrangeLoop, hfirst, pure, Except.pure, bind, Except.bind, hl]
  · simp only [hm, decide_false, Bool.not_false, if_true]
    have : items.flatMap RItem.expanded = items.map (RItem.text r) := by
      clear hok
      induction items with
      | nil => rfl
      | cons x rest ih =>
        have h1 : r ∉ join [j] (rest.map (RItem.text r)) := by
          intro h; apply hm
          cases rest with
          | nil => simp [join] at h
          | cons y ys => rw [List.map_cons, join_cons _ _ _ (by simp)]; exact List.mem_append_right _ h
        have h2 : r ∉ x.text r := by
          intro h; apply hm
          cases rest with
          | nil => simpa [join] using h
          | cons y ys => rw [List.map_cons, join_cons _ _ _ (by simp)]; simp [h]
        rw [List.flatMap_cons, ih h1, List.map_cons]
        cases x with
        | word w => rfl
        | range a b => exact absurd (by simp [RItem.text]) h2
    rw [this]; rfl

/-! ## ones -/

theorem onesAux_fuel (f g n : Nat) (hf : n < f) (hg : n < g) : onesAux f n = onesAux g n := by
  induction f generalizing g n with
  | zero => omega
  | succ f ih =>
    cases g with
    | zero => omega
    | succ g =>
      unfold onesAux
      split
      · rfl
      · rw [ih g (n / 2) (by omega) (by omega)]

/-- ones of a natural number -/
def onesN (n : Nat) : Nat := onesAux (n + 1) n

theorem onesN_step (n : Nat) : onesN n = n % 2 + onesN (n / 2) := by
  unfold onesN
  rw [onesAux]
  split
  · rename_i h; subst h; rfl
  · rw [onesAux_fuel n (n / 2 + 1) (n / 2) (by omega) (by omega)]

theorem onesN_zero : onesN 0 = 0 := rfl

theorem onesN_add (k a b : Nat) (h : b < 2 ^ k) : onesN (a * 2 ^ k + b) = onesN a + onesN b := by
  induction k generalizing a b with
  | zero => have : b = 0 := by simpa using h
            subst this; simp [onesN_zero]
  | succ k ih =>
    rw [onesN_step (a * 2 ^ (k + 1) + b), onesN_step b]
    have e : a * 2 ^ (k + 1) + b = 2 * (a * 2 ^ k) + b := by rw [Nat.pow_succ]; grind
    have h1 : (a * 2 ^ (k + 1) + b) % 2 = b % 2 := by omega
    have h2 : (a * 2 ^ (k + 1) + b) / 2 = a * 2 ^ k + b / 2 := by omega
    rw [h1, h2, ih a (b / 2) (by rw [Nat.pow_succ] at h; omega)]
    omega

theorem onesN_bitCount (w n : Nat) (h : n < 2 ^ w) : onesN n = bitCount w n := by
  induction w generalizing n with
  | zero => have : n = 0 := by simpa using h
            subst this; rfl
  | succ w ih =>
    rw [onesN_step, ih (n / 2) (by rw [Nat.pow_succ] at h; omega)]
    unfold bitCount
    rw [List.range_succ_eq_map, List.countP_cons, List.countP_map]
    have h0 : n.testBit 0 = decide (n % 2 = 1) := Nat.testBit_zero n
    have hs : ((fun i => n.testBit i) ∘ Nat.succ) = fun i => (n / 2).testBit i := by
      funext i; simp [Nat.testBit_succ]
    rw [hs, h0]
    have : n % 2 = 0 ∨ n % 2 = 1 := by omega
    rcases this with h | h <;> simp [h]; omega

theorem onesN_mask (p : Nat) : onesN (2 ^ p - 1) = p := by
  induction p with
  | zero => rfl
  | succ p ih =>
    rw [onesN_step]
    have h1 : 0 < 2 ^ p := Nat.two_pow_pos p
    have h2 : (2 ^ (p + 1) - 1) % 2 = 1 := by rw [Nat.pow_succ]; omega
    have h3 : (2 ^ (p + 1) - 1) / 2 = 2 ^ p - 1 := by rw [Nat.pow_succ]; omega
    rw [h2, h3, ih]; omega

theorem onesN_netmask (p : Nat) (h : p ≤ 32) : onesN (netmask p) = p := by
  have e : netmask p = (2 ^ p - 1) * 2 ^ (32 - p) + 0 := by
    unfold netmask
    rw [Nat.sub_mul, ← Nat.pow_add]
    have : p + (32 - p) = 32 := by omega
    rw [this]; omega
  rw [e, onesN_add _ _ _ (Nat.two_pow_pos _), onesN_mask, onesN_zero]; omega

theorem onesN_octets (n : Nat) (h : n < 2 ^ 32) : ((octets n).map onesN).sum = onesN n := by
  have e1 : n = (n / 2 ^ 8) * 2 ^ 8 + n % 256 := by omega
  have e2 : n / 2 ^ 8 = (n / 2 ^ 16) * 2 ^ 8 + n / 2 ^ 8 % 256 := by omega
  have e3 : n / 2 ^ 16 = (n / 2 ^ 24) * 2 ^ 8 + n / 2 ^ 16 % 256 := by omega
  have e4 : n / 2 ^ 24 = n / 2 ^ 24 % 256 := by omega
  have h1 : onesN n = onesN (n / 2 ^ 8) + onesN (n % 256) := by
    rw [← onesN_add 8 _ _ (by omega), ← e1]
  have h2 : onesN (n / 2 ^ 8) = onesN (n / 2 ^ 16) + onesN (n / 2 ^ 8 % 256) := by
    rw [← onesN_add 8 _ _ (by omega), ← e2]
  have h3 : onesN (n / 2 ^ 16) = onesN (n / 2 ^ 24) + onesN (n / 2 ^ 16 % 256) := by
    rw [← onesN_add 8 _ _ (by omega), ← e3]
  rw [h1, h2, h3]
  simp only [octets, List.map_cons, List.map_nil, List.sum_cons, List.sum_nil, ← e4]
  omega

theorem allInts_natStr (ns : List Nat) : allInts (ns.map natStr) = some (ns.map (fun (n : Nat) => (n : Int))) := by
  induction ns with
  | nil => rfl
  | cons n ns ih => simp only [List.map_cons, allInts, intOfStr_natStr, ih]

theorem toCidr_dotted (ns : List Nat) (h : ns ≠ []) : toCidr (dotted ns) = .int ((ns.map onesN).sum : Nat) := by
  unfold toCidr dotted
  rw [split_char, splitC_join '.' _ (by simpa using h)]
  · rw [allInts_natStr]
    simp only [List.map_map]
    rfl
  · intro w hw
    obtain ⟨n, _, rfl⟩ := List.mem_map.1 hw
    exact natStr_no n '.' (by decide)

/-! ## mac_eui -/

theorem pairs_flatten (s : Str) : (pairs s).flatten = s := by
  induction s using pairs.induct with
  | case1 => rfl
  | case2 => rfl
  | case3 a b rest ih => simp [pairs, ih]

theorem filter_join_pairs (ps : List Str) (h : ∀ p ∈ ps, ∀ c ∈ p, isMacSep c = false) :
    (join [':'] ps).filter (fun c => !isMacSep c) = ps.flatten := by
  induction ps with
  | nil => rfl
  | cons p ps ih =>
    have hp : p.filter (fun c => !isMacSep c) = p := by
      rw [List.filter_eq_self]; intro c hc; simp [h p (by simp) c hc]
    cases ps with
    | nil => simpa [join] using hp
    | cons q ps =>
      rw [join_cons _ _ _ (by simp), List.filter_append, List.filter_append, hp, ih (fun x hx => h x (List.mem_cons_of_mem _ hx))]
      simp [isMacSep]

theorem isAlnum_not_sep (c : Char) (h : isAlnum c = true) : isMacSep c = false := by
  simp only [isMacSep, Bool.or_eq_false_iff, beq_eq_false_iff_ne, ne_eq]
  refine ⟨⟨?_, ?_⟩, ?_⟩ <;> rintro rfl <;> revert h <;> decide

theorem lowerC_idem (c : Char) : lowerC (lowerC c) = lowerC c := by
  unfold lowerC
  split
  · rename_i h
    have hv : (c.toNat + 32).isValidChar := by left; omega
    have e : (Char.ofNat (c.toNat + 32)).toNat = c.toNat + 32 := by
      generalize c.toNat + 32 = m at hv
      simp [Char.ofNat, hv, Char.ofNatAux, Char.toNat]
    rw [if_neg (by rw [e]; omega)]
  · rfl

theorem lower_idem (s : Str) : lower (lower s) = lower s := by
  simp [lower, lowerC_idem]

theorem lower_append (a b : Str) : lower (a ++ b) = lower a ++ lower b := by simp [lower]

/-- the digits of an accepted MAC address, padded -/
def macDigits (data : Str) : Str :=
  lower (data.filter (fun c => !isMacSep c)) ++ List.replicate (12 - (data.filter (fun c => !isMacSep c)).length) '0'

theorem lower_length (s : Str) : (lower s).length = s.length := by simp [lower]

theorem macEui_ok (data : Str) (h : isalnumS (lower (data.filter (fun c => !isMacSep c))) = true) :
    macEui data = join [':'] (pairs (macDigits data)) := by
  unfold macEui macDigits
  simp only [h, if_true, lower_length]
  split
  · rename_i e; rw [e]; simp
  · rfl

theorem macDigits_alnum (data : Str) (h : isalnumS (lower (data.filter (fun c => !isMacSep c))) = true) :
    ∀ c ∈ macDigits data, isAlnum c = true := by
  simp only [isalnumS, Bool.and_eq_true, List.all_eq_true] at h
  intro c hc
  rcases List.mem_append.1 hc with hc | hc
  · exact h.2 c hc
  · rw [List.mem_replicate] at hc; rw [hc.2]; decide

theorem macEui_digits (data : Str) (h : isalnumS (lower (data.filter (fun c => !isMacSep c))) = true) :
    (macEui data).filter (fun c => !isMacSep c) = macDigits data := by
  rw [macEui_ok data h, filter_join_pairs, pairs_flatten]
  intro p hp c hc
  refine isAlnum_not_sep c (macDigits_alnum data h c ?_)
  rw [← pairs_flatten (macDigits data)]
  exact List.mem_flatten.2 ⟨p, hp, hc⟩

theorem macDigits_lower (data : Str) : lower (macDigits data) = macDigits data := by
  unfold macDigits
  rw [lower_append, lower_idem]
  congr 1
  simp only [lower, List.map_replicate]
  rfl

theorem macEui_idem (data : Str) : macEui (macEui data) = macEui data := by
  cases h : isalnumS (lower (data.filter (fun c => !isMacSep c))) with
  | false => unfold macEui; simp [h]
  | true =>
    have hd := macEui_digits data h
    have hlen : 12 ≤ (macDigits data).length := by simp [macDigits, lower_length]; omega
    have h2 : isalnumS (lower ((macEui data).filter (fun c => !isMacSep c))) = true := by
      rw [hd, macDigits_lower]
      simp only [isalnumS, Bool.and_eq_true, List.all_eq_true]
      refine ⟨?_, macDigits_alnum data h⟩
      cases hm : macDigits data with
      | nil => rw [hm] at hlen; simp at hlen
      | cons a b => rfl
    rw [macEui_ok (macEui data) h2]
    have : macDigits (macEui data) = macDigits data := by
      rw [macDigits, hd, macDigits_lower]
      have : 12 - (macDigits data).length = 0 := by omega
      rw [this]; simp
    rw [this, ← macEui_ok data h]

theorem pairs_length (s : Str) (i : Nat) (p : Str) (h : (pairs s)[i]? = some p) : p = (s.drop (2 * i)).take 2 := by
  induction s using pairs.induct generalizing i with
  | case1 => simp [pairs] at h
  | case2 a =>
    cases i with
    | zero => simp [pairs] at h; subst h; rfl
    | succ i => simp [pairs] at h
  | case3 a b rest ih =>
    cases i with
    | zero => simp [pairs] at h; subst h; rfl
    | succ i =>
      simp only [pairs, List.getElem?_cons_succ] at h
      rw [ih i h]
      congr 1

/-! ## item -/

theorem pyIdx_nonneg {α : Type} (xs : List α) (i : Nat) (x : α) (h : xs[i]? = some x) : pyIdx xs (i : Int) = .ok x := by
  unfold pyIdx
  have : ¬ ((i : Int) < 0) := by omega
  simp [this, h]; rfl

theorem pyIdx_neg {α : Type} (xs : List α) (i : Nat) (x : α) (hi : 0 < i) (hl : i ≤ xs.length) (h : xs[xs.length - i]? = some x) :
    pyIdx xs (-(i : Int)) = .ok x := by
  unfold pyIdx
  have h1 : (-(i : Int) < 0) := by omega
  have h2 : ¬ (-(i : Int) + (xs.length : Int) < 0) := by omega
  have h3 : (-(i : Int) + (xs.length : Int)).toNat = xs.length - i := by omega
  simp only [h1, if_true, h2, if_false, h3, h]; rfl

/-! ## truncate -/

theorem truncate_words (data : Str) (n : Nat) : truncate data n = join [' '] ((splitC ' ' data).take n) := by
  unfold truncate takeInt
  simp only [split_char]
  split
  · rw [if_pos (by omega)]; rfl
  · rename_i h
    rw [List.take_of_length_le (by omega), join_splitC]

theorem count_join (c : Char) (ws : List Str) (h : ∀ w ∈ ws, c ∉ w) : (join [c] ws).count c = ws.length - 1 := by
  induction ws with
  | nil => rfl
  | cons w ws ih =>
    have hw : w.count c = 0 := List.count_eq_zero.2 (h w (by simp))
    cases ws with
    | nil => simpa [join] using hw
    | cons v ws =>
      have ih := ih (fun x hx => h x (List.mem_cons_of_mem _ hx))
      rw [join_cons _ _ _ (by simp), List.count_append, List.count_append, ih, hw]
      simp; omega

theorem splitC_take_join (sep : Char) (s : Str) (n : Nat) (hn : 0 < n) :
    splitC sep (join [sep] ((splitC sep s).take n)) = (splitC sep s).take n := by
  apply splitC_join
  · have := splitC_ne_nil sep s
    cases h : splitC sep s with
    | nil => exact absurd h this
    | cons a b => cases n with
      | zero => omega
      | succ n => simp
  · intro w hw
    exact splitC_no_sep sep s w (List.mem_of_mem_take hw)

end MatchFn
end TTP
