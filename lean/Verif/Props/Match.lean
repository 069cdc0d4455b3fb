import Verif.Proofs.Match
import Verif.Proofs.Net
/-!
# C48 - C52, C59 - C61: functions of match variables

`builtin W f env data` is the call of one function `f` of a match variable on the value `data`, as `check_matches` does it:
the result is the new state of the variables, the new value and the flag. `fn name args` is the call `name(args)`.
-/

namespace Props
open Py Spec TTP TTP.MatchFn

/-- the call `name(args)` -/
def fn (name : Str) (args : List Val) : FnCall := ⟨name, args, []⟩

theorem builtin_pure (W : World) (f : FnCall) (env : Env) (data : Val) (h1 : f.name ≠ c!"count") (h2 : f.name ≠ c!"record")
    (h3 : pureNames.contains f.name = true) (h4 : lookupElsewhere f = false) (r : Val × Flag)
    (h : callPure W f env data = .ok r) : builtin W f env data = .ok (env, r.1, r.2) := by
  have h5 : f.name ≠ c!"gpvlookup" := by intro e; rw [e] at h3; revert h3; decide
  unfold builtin call
  simp only [h1, h2, h3, h4, h5, if_false, Bool.not_false, Bool.and_self, if_true, h]
  rfl

theorem builtin_named (W : World) (name : Str) (args : List Val) (env : Env) (data : Val) (h1 : name ≠ c!"count")
    (h2 : name ≠ c!"record") (h3 : pureNames.contains name = true) (h4 : lookupElsewhere (fn name args) = false) (r : Val × Flag)
    (h : callPure W (fn name args) env data = .ok r) : builtin W (fn name args) env data = .ok (env, r.1, r.2) :=
  builtin_pure W (fn name args) env data h1 h2 h3 h4 r h

/-! ## C48 -/

/-- C48. A text made of entries (words, and ranges `a-b` with `a < b`) joined by `j` is turned into the same list with every
range replaced by all its numbers, in order - for every list of entries and every pair of different separators that are
no digits. -/
theorem C48_unrange_expands (W : World) (env : Env) (r j : Char) (hr : isDigit r = false) (hj : isDigit j = false) (hrj : r ≠ j)
    (items : List RItem) (hok : ∀ x ∈ items, x.Ok r j) :
    builtin W (fn c!"unrange" [.str [r], .str [j]]) env (.str (join [j] (items.map (RItem.text r)))) =
      .ok (env, .str (join [j] (items.flatMap RItem.expanded)), .nothing) := by
  have h := unrange_items r j hr hj hrj items hok
  refine builtin_named W _ _ env _ (by decide) (by decide) (by decide) rfl (.str _, .nothing) ?_
  show (do let v ← unrange _ [r] [j]; pure (Val.str v, Flag.nothing) : PyM _) = _
  rw [h]; rfl

/-- C48. Text without the range character is unchanged. -/
theorem C48_unrange_no_range (W : World) (env : Env) (data r j : Str) (h : Py.contains data r = false) :
    builtin W (fn c!"unrange" [.str r, .str j]) env (.str data) = .ok (env, .str data, .nothing) := by
  have h2 : unrange data r j = .ok data := by unfold unrange; simp [h]; rfl
  refine builtin_named W _ _ env _ (by decide) (by decide) (by decide) rfl (.str _, .nothing) ?_
  show (do let v ← unrange data r j; pure (Val.str v, Flag.nothing) : PyM _) = _
  rw [h2]; rfl

/-- the example of the documentation -/
example (W : World) (env : Env) :
    builtin W (fn c!"unrange" [.str c!"-", .str c!","]) env (.str c!"8,10-13,20") = .ok (env, .str c!"8,10,11,12,13,20", .nothing) :=
  C48_unrange_expands W env '-' ',' (by decide) (by decide) (by decide) [.word c!"8", .range 10 13, .word c!"20"]
    (by simp [RItem.Ok])

/-- What the claim does not cover, and the code does not do: a range from a number to itself gives it twice, and a missing or
non-numeric start or a missing end of a range raises an exception, which ends the parsing. -/
theorem C48_other_ranges (W : World) (env : Env) :
    builtin W (fn c!"unrange" [.str c!"-", .str c!","]) env (.str c!"5-5") = .ok (env, .str c!"5,5", .nothing) ∧
    builtin W (fn c!"unrange" [.str c!"-", .str c!","]) env (.str c!"5-") = .error .indexError ∧
    builtin W (fn c!"unrange" [.str c!"-", .str c!","]) env (.str c!"eth-5") = .error .valueError :=
  ⟨rfl, rfl, rfl⟩

/-! ## C49 -/

/-- C49. For any list of numbers written with dots, `to_cidr` is the total number of one bits (`w` is any width large enough
for all numbers). -/
theorem C49_to_cidr_counts_ones (W : World) (env : Env) (ns : List Nat) (hne : ns ≠ []) (w : Nat) (hw : ∀ n ∈ ns, n < 2 ^ w) :
    builtin W (fn c!"to_cidr" []) env (.str (dotted ns)) = .ok (env, .int ((ns.map (bitCount w)).sum : Nat), .nothing) := by
  have h := toCidr_dotted ns hne
  have e : ns.map onesN = ns.map (bitCount w) := List.map_congr_left (fun n hn => onesN_bitCount w n (hw n hn))
  rw [e] at h
  rw [← h]
  rfl

/-- C49. `to_cidr` of the dotted netmask with prefix length `p` is `p`. -/
theorem C49_to_cidr_of_netmask (W : World) (env : Env) (p : Nat) (hp : p ≤ 32) :
    builtin W (fn c!"to_cidr" []) env (.str (dotted (octets (netmask p)))) = .ok (env, .int p, .nothing) := by
  have h := toCidr_dotted (octets (netmask p)) (by simp [octets])
  rw [onesN_octets _ (by unfold netmask; have := Nat.two_pow_pos (32 - p); omega), onesN_netmask p hp] at h
  rw [← h]
  rfl

/-- C49. Text with a part that is no number is unchanged. -/
theorem C49_to_cidr_other (W : World) (env : Env) (data w : Str) (hw : w ∈ Py.split ['.'] data) (hn : intOfStr w = none) :
    builtin W (fn c!"to_cidr" []) env (.str data) = .ok (env, .str data, .nothing) := by
  have : allInts (Py.split ['.'] data) = none := by
    generalize Py.split ['.'] data = ws at hw
    induction ws with
    | nil => cases hw
    | cons v vs ih =>
      rw [allInts]
      rcases List.mem_cons.1 hw with rfl | hw
      · rw [hn]
      · rw [ih hw]; split
        · rename_i h2; cases h2
        · rfl
  have h : toCidr data = .str data := by unfold toCidr; rw [this]
  show Except.ok (env, toCidr data, Flag.nothing) = _
  rw [h]

example : dotted (octets (netmask 20)) = c!"255.255.240.0" := by decide

/-! ## C50 -/

/-- C50. If the text without `.`, `:`, `-` is alphanumeric, then the result consists of the same characters in lower case,
followed by zeros up to 12, with a colon after every second one. -/
theorem C50_mac_eui (W : World) (env : Env) (data digits : Str) (hd : digits = lower (data.filter (fun c => c ≠ '.' ∧ c ≠ ':' ∧ c ≠ '-')))
    (h : isalnumS digits = true) :
    ∃ ps : List Str,
      builtin W (fn c!"mac_eui" []) env (.str data) = .ok (env, .str (join [':'] ps), .nothing) ∧
      ps.flatten = digits ++ List.replicate (12 - digits.length) '0' ∧
      (∀ (i : Nat) p, ps[i]? = some p → p = (ps.flatten.drop (2 * i)).take 2) := by
  have e : data.filter (fun c => !isMacSep c) = data.filter (fun c => c ≠ '.' ∧ c ≠ ':' ∧ c ≠ '-') := by
    apply List.filter_congr
    intro c _
    unfold isMacSep
    by_cases h1 : c = '.' <;> by_cases h2 : c = ':' <;> by_cases h3 : c = '-' <;> simp [h1, h2, h3]
  have hd2 : lower (data.filter (fun c => !isMacSep c)) = digits := by rw [e, hd]
  have hlen : digits.length = (data.filter (fun c => !isMacSep c)).length := by rw [← hd2, lower_length]
  refine ⟨pairs (macDigits data), ?_, ?_, ?_⟩
  · rw [← macEui_ok data (by rw [hd2]; exact h)]; rfl
  · rw [pairs_flatten, macDigits, hd2, hlen]
  · intro i p hp
    rw [pairs_flatten]
    exact pairs_length _ i p hp

/-- C50. Other text is unchanged. -/
theorem C50_mac_eui_other (W : World) (env : Env) (data : Str)
    (h : isalnumS (lower (data.filter (fun c => c ≠ '.' ∧ c ≠ ':' ∧ c ≠ '-'))) = false) :
    builtin W (fn c!"mac_eui" []) env (.str data) = .ok (env, .str data, .nothing) := by
  have e : data.filter (fun c => !isMacSep c) = data.filter (fun c => c ≠ '.' ∧ c ≠ ':' ∧ c ≠ '-') := by
    apply List.filter_congr
    intro c _
    unfold isMacSep
    by_cases h1 : c = '.' <;> by_cases h2 : c = ':' <;> by_cases h3 : c = '-' <;> simp [h1, h2, h3]
  have h2 : macEui data = data := by unfold macEui; rw [e]; simp only [h]; simp
  show Except.ok (env, Val.str (macEui data), Flag.nothing) = _
  rw [h2]

/-- C50. Applying `mac_eui` to its result changes nothing. -/
theorem C50_mac_eui_idempotent (W : World) (env : Env) (data out : Str)
    (h : builtin W (fn c!"mac_eui" []) env (.str data) = .ok (env, .str out, .nothing)) :
    builtin W (fn c!"mac_eui" []) env (.str out) = .ok (env, .str out, .nothing) := by
  have h1 : out = macEui data := by
    have : Except.ok (env, Val.str (macEui data), Flag.nothing) = Except.ok (env, Val.str out, Flag.nothing) := h
    injection this with this
    injection this with _ this
    injection this with this _
    injection this with this
    exact this.symm
  show Except.ok (env, Val.str (macEui out), Flag.nothing) = _
  rw [h1, macEui_idem]

example (W : World) (env : Env) :
    builtin W (fn c!"mac_eui" []) env (.str c!"80.41AE-Fd:7") = .ok (env, .str c!"80:41:ae:fd:70:00", .nothing) := by rfl

/-! ## C51 -/

/-- the index that `item(i)` stands for, among `n` items -/
def clampIdx (n : Nat) (i : Int) : Nat := if 0 ≤ i then min i.toNat (n - 1) else n - min (-i).toNat n

theorem item_clamp {α : Type} (xs : List α) (hne : xs ≠ []) (i : Int) (x : α) (hx : xs[clampIdx xs.length i]? = some x) :
    item xs i = .ok (some x) := by
  have hpos : 0 < xs.length := List.length_pos_iff.2 hne
  unfold item
  unfold clampIdx at hx
  by_cases h0 : 0 ≤ i
  · rw [if_pos h0] at hx
    by_cases h1 : i ≤ (xs.length : Int) - 1
    · rw [if_pos ⟨h0, h1⟩]
      have : min i.toNat (xs.length - 1) = i.toNat := by omega
      rw [this] at hx
      have := pyIdx_nonneg xs i.toNat x hx
      rw [show ((i.toNat : Nat) : Int) = i by omega] at this
      rw [this]; rfl
    · rw [if_neg (by omega), if_pos (by omega)]
      have : min i.toNat (xs.length - 1) = xs.length - 1 := by omega
      rw [this] at hx
      have := pyIdx_neg xs 1 x (by omega) (by omega) hx
      rw [show (-((1 : Nat) : Int)) = -1 by rfl] at this
      rw [this]; rfl
  · rw [if_neg h0] at hx
    rw [if_neg (by omega), if_neg (by omega)]
    by_cases h1 : (i.natAbs : Int) ≤ (xs.length : Int) - 1
    · rw [if_pos (by omega)]
      have : min (-i).toNat xs.length = (-i).toNat := by omega
      rw [this] at hx
      have := pyIdx_neg xs (-i).toNat x (by omega) (by omega) hx
      rw [show (-(((-i).toNat : Nat) : Int)) = i by omega] at this
      rw [this]; rfl
    · rw [if_neg (by omega), if_pos (by omega)]
      have : min (-i).toNat xs.length = xs.length := by omega
      rw [this, Nat.sub_self] at hx
      have := pyIdx_nonneg xs 0 x hx
      rw [show ((0 : Nat) : Int) = 0 by rfl] at this
      rw [this]; rfl

/-- C51. On a non-empty list `item(i)` never fails: it returns the element with index `i`, counted from the end if negative;
an index out of range stands for the last, or the first element. -/
theorem C51_item_list (W : World) (env : Env) (xs : List Val) (hne : xs ≠ []) (i : Int) :
    ∃ x, xs[clampIdx xs.length i]? = some x ∧
      builtin W (fn c!"item" [.int i]) env (.list xs) = .ok (env, x, .nothing) := by
  have hpos : 0 < xs.length := List.length_pos_iff.2 hne
  have hlt : clampIdx xs.length i < xs.length := by unfold clampIdx; split <;> omega
  refine ⟨xs[clampIdx xs.length i], List.getElem?_eq_getElem hlt, ?_⟩
  have := item_clamp xs hne i _ (List.getElem?_eq_getElem hlt)
  refine builtin_named W _ _ env _ (by decide) (by decide) (by decide) rfl (_, .nothing) ?_
  show (do pure ((← item xs i).getD .none, .nothing) : PyM (Val × Flag)) = _
  rw [this]; rfl

/-- C51 for a string: the same with characters. -/
theorem C51_item_string (W : World) (env : Env) (s : Str) (hne : s ≠ []) (i : Int) :
    ∃ c, s[clampIdx s.length i]? = some c ∧
      builtin W (fn c!"item" [.int i]) env (.str s) = .ok (env, .str [c], .nothing) := by
  have hpos : 0 < s.length := List.length_pos_iff.2 hne
  have hlt : clampIdx s.length i < s.length := by unfold clampIdx; split <;> omega
  refine ⟨s[clampIdx s.length i], List.getElem?_eq_getElem hlt, ?_⟩
  have := item_clamp s hne i _ (List.getElem?_eq_getElem hlt)
  refine builtin_named W _ _ env _ (by decide) (by decide) (by decide) rfl (.str _, .nothing) ?_
  show (do pure (((← item s i).map (fun c => Val.str [c])).getD .none, .nothing) : PyM (Val × Flag)) = _
  rw [this]; rfl

example (W : World) (env : Env) :
    (builtin W (fn c!"item" [.int 9]) env (.str c!"abc") = .ok (env, .str c!"c", .nothing)) ∧
    (builtin W (fn c!"item" [.int (-2)]) env (.str c!"abc") = .ok (env, .str c!"b", .nothing)) ∧
    (builtin W (fn c!"item" [.int (-3)]) env (.str c!"abc") = .ok (env, .str c!"a", .nothing)) ∧
    (builtin W (fn c!"item" [.int (-9)]) env (.str c!"abc") = .ok (env, .str c!"a", .nothing)) := ⟨rfl, rfl, rfl, rfl⟩

/-! ## C52 -/

/-- C52. `truncate(n)` for `n` at least 1 returns the beginning of the text up to the end of a word, with `n` words if the
text has that many (words are what is between blanks, so `n` words have `n - 1` blanks), and the whole text otherwise. -/
theorem C52_truncate (W : World) (env : Env) (data : Str) (n : Nat) (hn : 0 < n) :
    ∃ t, builtin W (fn c!"truncate" [.int n]) env (.str data) = .ok (env, .str t, .nothing) ∧
      WordPrefix t data ∧ t.count ' ' = min (n - 1) (data.count ' ') := by
  refine ⟨truncate data n, rfl, ?_, ?_⟩
  · rw [truncate_words]
    by_cases h : (splitC ' ' data).length ≤ n
    · left; rw [List.take_of_length_le h, join_splitC]
    · right
      refine ⟨join [' '] ((splitC ' ' data).drop n), ?_⟩
      have h1 : (splitC ' ' data).take n ≠ [] := by
        intro e; have := congrArg List.length e; rw [List.length_take, List.length_nil] at this; omega
      have h2 : (splitC ' ' data).drop n ≠ [] := by
        intro e; have := congrArg List.length e; simp at this; omega
      have := join_append [' '] _ _ h1 h2
      rw [List.take_append_drop, join_splitC] at this
      rw [List.append_assoc] at this
      exact this
  · rw [truncate_words]
    have hl : data.count ' ' = (splitC ' ' data).length - 1 := by
      have := count_join ' ' (splitC ' ' data) (splitC_no_sep ' ' data)
      rwa [join_splitC] at this
    rw [count_join ' ' _ (fun w hw => splitC_no_sep ' ' data w (List.mem_of_mem_take hw)), hl, List.length_take]
    omega

/-- C52. `truncate(-n)` leaves out the last `n` words; nothing is left of a text that has not more words. -/
theorem C52_truncate_negative (W : World) (env : Env) (front back : List Str) (n : Nat) (hn : 0 < n) (hne : front ++ back ≠ [])
    (hw : ∀ w ∈ front ++ back, ' ' ∉ w) (hb : back.length = n ∨ front = [] ∧ back.length ≤ n) :
    builtin W (fn c!"truncate" [.int (-(n : Int))]) env (.str (join [' '] (front ++ back))) = .ok (env, .str (join [' '] front), .nothing) := by
  have : truncate (join [' '] (front ++ back)) (-(n : Int)) = join [' '] front := by
    unfold truncate takeInt
    simp only [split_char, splitC_join ' ' _ hne hw]
    rw [if_pos (by omega), if_neg (by omega)]
    have e : (-(-(n : Int))).toNat = n := by omega
    rw [e]
    rcases hb with hb | ⟨rfl, hb⟩
    · rw [List.length_append, hb, Nat.add_sub_cancel, List.take_left']
      rfl
    · rw [List.nil_append, Nat.sub_eq_zero_of_le hb]
      rfl
  show Except.ok (env, Val.str (truncate (join [' '] (front ++ back)) (-(n : Int))), Flag.nothing) = _
  rw [this]

example (W : World) (env : Env) :
    builtin W (fn c!"truncate" [.int (-1)]) env (.str c!"a b c") = .ok (env, .str c!"a b", .nothing) ∧
    builtin W (fn c!"truncate" [.int (-5)]) env (.str c!"a b c") = .ok (env, .str [], .nothing) :=
  ⟨C52_truncate_negative W env [c!"a", c!"b"] [c!"c"] 1 (by decide) (by decide) (by decide) (by decide),
    C52_truncate_negative W env [] [c!"a", c!"b", c!"c"] 5 (by decide) (by decide) (by decide) (by decide)⟩

/-- C52. `truncate(0)` gives the empty text. -/
theorem C52_truncate_zero (W : World) (env : Env) (data : Str) :
    builtin W (fn c!"truncate" [.int 0]) env (.str data) = .ok (env, .str [], .nothing) := by
  have : truncate data ((0 : Nat) : Int) = [] := by rw [truncate_words]; rfl
  show Except.ok (env, Val.str (truncate data ((0 : Nat) : Int)), Flag.nothing) = _
  rw [this]

/-- C52. Truncating twice is truncating to the smaller count. -/
theorem C52_truncate_twice (data : Str) (m n : Nat) : truncate (truncate data m) n = truncate data (min m n : Nat) := by
  rw [truncate_words data m, truncate_words data (min m n), truncate_words]
  cases m with
  | zero =>
    simp only [List.take_zero, Nat.zero_min]
    show join [' '] (([[]] : List Str).take n) = join [' '] []
    cases n with
    | zero => rfl
    | succ n => simp [join]
  | succ m =>
    rw [splitC_take_join ' ' data (m + 1) (by omega), List.take_take, Nat.min_comm]

/-- C52 with calls by name. -/
theorem C52_truncate_twice_calls (W : World) (env : Env) (data t : Str) (m n : Nat)
    (h : builtin W (fn c!"truncate" [.int m]) env (.str data) = .ok (env, .str t, .nothing)) :
    builtin W (fn c!"truncate" [.int n]) env (.str t) = builtin W (fn c!"truncate" [.int (min m n : Nat)]) env (.str data) := by
  have h1 : t = truncate data m := by
    have : Except.ok (env, Val.str (truncate data m), Flag.nothing) = Except.ok (env, Val.str t, Flag.nothing) := h
    injection this with this
    injection this with _ this
    injection this with this _
    injection this with this
    exact this.symm
  subst h1
  show Except.ok (env, Val.str (truncate (truncate data m) n), Flag.nothing) = Except.ok (env, Val.str (truncate data (min m n : Nat)), Flag.nothing)
  rw [C52_truncate_twice]

example (W : World) (env : Env) :
    builtin W (fn c!"truncate" [.int 2]) env (.str c!"a b  c") = .ok (env, .str c!"a b", .nothing) := by rfl

/-! ## C60 -/

/-- the text is a number: digits, with white space around -/
def IsNumber (s : Str) : Prop := strip s ≠ [] ∧ ∀ c ∈ strip s, isDigit c = true

theorem isdigitS_iff (s : Str) : isdigitS (strip s) = true ↔ IsNumber s := by
  unfold isdigitS IsNumber
  simp only [Bool.and_eq_true, Bool.not_eq_true', List.all_eq_true]
  constructor
  · rintro ⟨h1, h2⟩
    refine ⟨?_, h2⟩
    intro e; rw [e] at h1; cases h1
  · rintro ⟨h1, h2⟩
    refine ⟨?_, h2⟩
    cases h : strip s with
    | nil => exact absurd h h1
    | cons a b => rfl

/-- the number that the text stands for -/
def numberOf (s : Str) : Nat := natOfDigits (strip s)

theorem dropWhile_idem (p : Char → Bool) (s : Str) : (s.dropWhile p).dropWhile p = s.dropWhile p := by
  induction s with
  | nil => rfl
  | cons c cs ih =>
    rw [List.dropWhile_cons]
    split
    · exact ih
    · rename_i h; rw [List.dropWhile_cons, if_neg h]

theorem digitsInt_eq (s : Str) (h : IsNumber s) : digitsInt s = (numberOf s : Int) := by
  unfold digitsInt
  rw [intOfStr_digits (strip s) (by rw [List.all_eq_true]; exact h.2) h.1]
  rfl

/-- C60. For two numbers `greaterthan` and `lessthan` accept exactly if the number is larger, or smaller; if one of the texts is
no number, both reject. The value never changes. -/
theorem C60_comparisons (W : World) (env : Env) (s v : Str) :
    ∃ g l : Bool,
      builtin W (fn c!"greaterthan" [.str v]) env (.str s) = .ok (env, .str s, if g then .yes else .no) ∧
      builtin W (fn c!"lessthan" [.str v]) env (.str s) = .ok (env, .str s, if l then .yes else .no) ∧
      (g = true ↔ IsNumber s ∧ IsNumber v ∧ numberOf v < numberOf s) ∧
      (l = true ↔ IsNumber s ∧ IsNumber v ∧ numberOf s < numberOf v) := by
  refine ⟨greaterthan s v, lessthan s v, rfl, rfl, ?_, ?_⟩
  · unfold greaterthan
    by_cases h : IsNumber s ∧ IsNumber v
    · rw [if_pos (by simp [isdigitS_iff, h.1, h.2]), decide_eq_true_eq, digitsInt_eq s h.1, digitsInt_eq v h.2]
      constructor
      · intro h2; exact ⟨h.1, h.2, by omega⟩
      · intro h2; have := h2.2.2; omega
    · rw [if_neg (by simp only [Bool.and_eq_true, isdigitS_iff]; exact h)]
      constructor
      · intro h2; cases h2
      · intro h2; exact absurd ⟨h2.1, h2.2.1⟩ h
  · unfold lessthan
    by_cases h : IsNumber s ∧ IsNumber v
    · rw [if_pos (by simp [isdigitS_iff, h.1, h.2]), decide_eq_true_eq, digitsInt_eq s h.1, digitsInt_eq v h.2]
      constructor
      · intro h2; exact ⟨h.1, h.2, by omega⟩
      · intro h2; have := h2.2.2; omega
    · rw [if_neg (by simp only [Bool.and_eq_true, isdigitS_iff]; exact h)]
      constructor
      · intro h2; cases h2
      · intro h2; exact absurd ⟨h2.1, h2.2.1⟩ h

/-- C60. `isdigit` accepts exactly numbers, `notdigit` exactly the rest. -/
theorem C60_isdigit_notdigit (W : World) (env : Env) (s : Str) :
    ∃ d : Bool,
      builtin W (fn c!"isdigit" []) env (.str s) = .ok (env, .str s, if d then .yes else .no) ∧
      builtin W (fn c!"notdigit" []) env (.str s) = .ok (env, .str s, if d then .no else .yes) ∧ (d = true ↔ IsNumber s) := by
  refine ⟨isdigitS (strip s), rfl, ?_, isdigitS_iff s⟩
  show Except.ok (env, Val.str s, chk (notdigit s)) = _
  unfold notdigit
  cases isdigitS (strip s) <;> rfl

example : IsNumber c!" 42 " ∧ numberOf c!" 42 " = 42 ∧ ¬ IsNumber c!"4x" := by
  refine ⟨⟨by decide, by decide⟩, by decide, fun h => ?_⟩
  have := h.2 'x' (by decide)
  revert this; decide

/-! ## C59 -/

/-- value of a counter: a missing variable counts as 0 -/
def counter (d : Dict Str Val) (v : Str) : Option Int :=
  match Dict.get? d v with
  | none => some 0
  | some (.int n) => some n
  | some _ => none

/-- any sequence of calls of match functions on values, with the flags ignored -/
def runCalls (mf : MatchFns) : List (FnCall × Val) → Env → PyM Env
  | [], env => .ok env
  | (f, v) :: rest, env => do
    let (env', _, _) ← mf f env v
    runCalls mf rest env'

/-- `count(var=v, globvar=g)` -/
def countCall (v g : Str) : FnCall := ⟨c!"count", [], [(c!"var", .str v), (c!"globvar", .str g)]⟩

theorem counter_set_other (d : Dict Str Val) (v w : Str) (x : Val) (h : w ≠ v) : counter (Dict.set d w x) v = counter d v := by
  unfold counter; rw [Dict.get?_set_ne d x h]

theorem incr_counter (d : Dict Str Val) (v : Str) (n : Int) (h : counter d v = some n) :
    incr d v = .ok (Dict.set d v (.int (n + 1))) := by
  unfold counter at h
  unfold incr
  cases hg : Dict.get? d v with
  | none => rw [hg] at h; injection h with h; subst h; rfl
  | some x =>
    rw [hg] at h
    cases x <;> first | (injection h with h; subst h; rfl) | (exfalso; simp at h)

theorem counter_set (d : Dict Str Val) (v : Str) (n : Int) : counter (Dict.set d v (.int n)) v = some n := by
  unfold counter; rw [Dict.get?_set_self]

theorem builtin_count (W : World) (v g : Str) (hv : v ≠ []) (hg : g ≠ []) (env : Env) (x : Val) (m n : Int)
    (h1 : counter env.vars v = some m) (h2 : counter env.gvars g = some n) :
    builtin W (countCall v g) env x =
      .ok ({ vars := Dict.set env.vars v (.int (m + 1)), gvars := Dict.set env.gvars g (.int (n + 1)) }, x, .nothing) := by
  have hc : count (some (.str v)) (some (.str g)) env
      = .ok { vars := Dict.set env.vars v (.int (m + 1)), gvars := Dict.set env.gvars g (.int (n + 1)) } := by
    have t1 : (Val.str v).truthy = true := by cases v with | nil => exact absurd rfl hv | cons a b => rfl
    have t2 : (Val.str g).truthy = true := by cases g with | nil => exact absurd rfl hg | cons a b => rfl
    unfold count incrIf
    simp only [t1, t2, if_true, incr_counter _ _ _ h1, incr_counter _ _ _ h2]
    rfl
  have : call W (countCall v g) env x = (do pure (← count (some (.str v)) (some (.str g)) env, x, Flag.nothing) : PyM _) := by rfl
  unfold builtin
  rw [this, hc]
  rfl

/-- C59. In any sequence of calls where each call is `count(var=v, globvar=g)` or leaves the two counters alone, the counters
have grown by the number of `count` calls. `m` and `n` are the values before (0 if there was no such variable). -/
theorem C59_count_counts (W : World) (v g : Str) (hv : v ≠ []) (hg : g ≠ []) (calls : List (FnCall × Val)) (env env' : Env) (m n : Int)
    (h1 : counter env.vars v = some m) (h2 : counter env.gvars g = some n)
    (hother : ∀ c ∈ calls, c.1 = countCall v g ∨
      ∀ e e' x fl, builtin W c.1 e c.2 = .ok (e', x, fl) → counter e'.vars v = counter e.vars v ∧ counter e'.gvars g = counter e.gvars g)
    (h : runCalls (builtin W) calls env = .ok env') :
    counter env'.vars v = some (m + calls.countP (fun c => c.1 = countCall v g)) ∧
    counter env'.gvars g = some (n + calls.countP (fun c => c.1 = countCall v g)) := by
  induction calls generalizing env m n with
  | nil => injection h with h; subst h; simp [h1, h2]
  | cons c rest ih =>
    obtain ⟨f, x⟩ := c
    have hrest := fun c hc => hother c (List.mem_cons_of_mem _ hc)
    rw [runCalls] at h
    by_cases hf : f = countCall v g
    · subst hf
      rw [builtin_count W v g hv hg env x m n h1 h2] at h
      have := ih _ _ _ (counter_set _ _ _) (counter_set _ _ _) hrest h
      rw [List.countP_cons_of_pos (by simp)]
      rw [this.1, this.2]
      constructor <;> · congr 1; omega
    · rcases hother (f, x) (by simp) with h3 | h3
      · exact absurd h3 hf
      · cases hb : builtin W f env x with
        | error e => rw [hb] at h; cases h
        | ok r =>
          obtain ⟨e1, y, fl⟩ := r
          rw [hb] at h
          have hk := h3 env e1 y fl hb
          have := ih e1 m n (by rw [hk.1]; exact h1) (by rw [hk.2]; exact h2) hrest h
          rw [List.countP_cons_of_neg (by simpa using hf)]
          exact this

/-- C59. `count` itself never fails on a counter and keeps the value. -/
theorem C59_count_accepts (W : World) (v g : Str) (hv : v ≠ []) (hg : g ≠ []) (env : Env) (x : Val) (m n : Int)
    (h1 : counter env.vars v = some m) (h2 : counter env.gvars g = some n) :
    ∃ env', builtin W (countCall v g) env x = .ok (env', x, .nothing) ∧ counter env'.vars v = some (m + 1) ∧
      counter env'.gvars g = some (n + 1) :=
  ⟨_, builtin_count W v g hv hg env x m n h1 h2, counter_set _ _ _, counter_set _ _ _⟩

/-! ## Functions that leave the variables alone -/

/-- C66. Every modelled function but `count`, `record` and `gpvlookup` (which has a record argument) leaves template variables and global variables as they are. -/
theorem C66_checks_keep_variables (W : World) (f : FnCall) (hc : f.name ≠ c!"count") (hr : f.name ≠ c!"record")
    (hg : f.name ≠ c!"gpvlookup") (ho : W.other f = none)
    (env env' : Env) (data v : Val) (fl : Flag) (h : builtin W f env data = .ok (env', v, fl)) : env' = env := by
  have hm : ∀ r, callMethod W f env data = .ok r → r.1 = env := by
    intro r h
    unfold callMethod at h
    cases hw : W.method f data with
    | error e => rw [hw] at h; cases h
    | ok o =>
      rw [hw] at h
      simp only [bind, Except.bind] at h
      split at h <;> (injection h with h; rw [← h])
  have hcall : ∀ r, call W f env data = .ok r → r.1 = env := by
    intro r h
    unfold call at h
    rw [if_neg hc, if_neg hr, if_neg hg] at h
    split at h
    · cases hp : callPure W f env data with
      | error e => rw [hp] at h; cases h
      | ok o => rw [hp] at h; injection h with h; rw [← h]
    · split at h
      · cases hp : lookupOther W f data with
        | error e => rw [hp] at h; cases h
        | ok o => rw [hp] at h; injection h with h; rw [← h]
      · unfold otherCall at h; rw [ho] at h; cases h
  unfold builtin at h
  cases hcl : call W f env data with
  | ok r => rw [hcl] at h; injection h with h; rw [h] at hcl; exact hcall _ hcl
  | error e =>
    rw [hcl] at h
    cases e <;> first | exact hm _ h | cases h

/-- C67 is false of the code for `KeyError`. A `KeyError` raised by a macro is not reported: unless the value has a method called `macro`, the match is kept with the
value unchanged. -/
theorem C67_macro_keyError_hidden (W : World) (env : Env) (name : Str) (m : Val → PyM MRes) (data : Val)
    (hm : Dict.get? W.macros name = some m) (hk : m data = .error .keyError)
    (hno : W.method (fn c!"macro" [.str name]) data = .ok none) :
    builtin W (fn c!"macro" [.str name]) env data = .ok (env, data, .nothing) := by
  have : call W (fn c!"macro" [.str name]) env data = .error .keyError := by
    show (do
      let r ← (match Dict.get? W.macros name with
        | some m => do
          let r := macroRes data (← m data)
          pure r
        | none => pure (data, .nothing) : PyM (Val × Flag))
      pure (env, r.1, r.2) : PyM (Env × Val × Flag)) = _
    rw [hm]
    simp only [hk]
    rfl
  unfold builtin
  rw [this]
  show callMethod W _ env data = _
  unfold callMethod
  rw [hno]; rfl

/-- C67. Any other exception of a macro ends the checks of the value with that exception, whatever functions follow. -/
theorem C67_macro_errors_surface_partial (W : World) (env : Env) (name : Str) (m : Val → PyM MRes) (data : Val) (e : Err) (he : e ≠ .keyError)
    (hm : Dict.get? W.macros name = some m) (hk : m data = .error e) (fs : List FnCall) (flags : Option (Dict Key Val)) :
    runMatchFns (builtin W) (fn c!"macro" [.str name] :: fs) env data flags = .error e := by
  have : call W (fn c!"macro" [.str name]) env data = .error e := by
    show (do
      let r ← (match Dict.get? W.macros name with
        | some m => do
          let r := macroRes data (← m data)
          pure r
        | none => pure (data, .nothing) : PyM (Val × Flag))
      pure (env, r.1, r.2) : PyM (Env × Val × Flag)) = _
    rw [hm]
    simp only [hk]
    rfl
  have hb : builtin W (fn c!"macro" [.str name]) env data = .error e := by
    unfold builtin
    rw [this]
    cases e <;> first | rfl | exact absurd rfl he
  rw [runMatchFns, hb]; rfl

/-- a world with a macro that raises `KeyError` on every value but the empty one and `ValueError` there -/
def W1 : World := ⟨[(c!"m", fun v => if v = .str [] then .error .valueError else .error .keyError)], .dict [], fun _ _ => .ok none, fun _ => none, fun _ => .error .valueError, fun _ _ _ => .error .valueError, fun _ => none, fun _ => none, fun _ => false, fun _ => .none, [], .list []⟩

example : builtin W1 (fn c!"macro" [.str c!"m"]) ⟨[], []⟩ (.str c!"x") = .ok (⟨[], []⟩, .str c!"x", .nothing) ∧
    runMatchFns (builtin W1) [fn c!"macro" [.str c!"m"]] ⟨[], []⟩ (.str []) none = .error .valueError :=
  ⟨C67_macro_keyError_hidden W1 _ c!"m" _ _ rfl rfl rfl,
   C67_macro_errors_surface_partial W1 _ c!"m" _ _ .valueError (by decide) rfl rfl [] none⟩

/-! ## C61 -/

open TTP.Net in
/-- C61. For two networks: `cidr_match` of an address with mask returns `True` exactly if its network and the prefix have an
address in common. -/
theorem C61_cidr_match_interface (v x p : Nat) (hp : p ≤ width v) (hx : x < 2 ^ width v) (net : Network) (hn : net.Ok) :
    ∃ b, cidrMatch (.iface v x p) net = some b ∧
      (b = true ↔ ∃ w y, y < 2 ^ width w ∧ (⟨v, x, width v - p⟩ : Block).Mem w y ∧ net.block.Mem w y) := by
  refine ⟨_, rfl, ?_⟩
  rw [overlaps_iff _ _ (ifaceNet_ok v x p hp hx) hn]
  simp only [iface_mem v x p _ _ hp hx]

open TTP.Net in
/-- C61. For a single address: exactly if the address is in the prefix. -/
theorem C61_cidr_match_address (v x : Nat) (hx : x < 2 ^ width v) (net : Network) (hn : net.Ok) :
    ∃ b, cidrMatch (.addr v x) net = some b ∧ (b = true ↔ net.block.Mem v x) := by
  refine ⟨_, rfl, ?_⟩
  rw [overlaps_iff _ _ (ifaceNet_ok v x _ (Nat.le_refl _) hx) hn]
  simp only [iface_mem v x _ _ _ (Nat.le_refl _) hx]
  constructor
  · rintro ⟨w, y, _, ⟨h1, h2⟩, h3⟩
    simp only [Nat.sub_self, Nat.pow_zero, Nat.div_one] at h1 h2
    subst h1; subst h2; exact h3
  · intro h
    exact ⟨v, x, hx, ⟨rfl, rfl⟩, h⟩

open TTP.Net in
/-- C61. Data of another kind are neither accepted nor rejected. -/
theorem C61_cidr_match_other (net : Network) : cidrMatch .other net = none := rfl

open TTP.Net in
/-- 10.0.0.0/8, 10.1.2.3 and 2001:db8::1 (version 6) -/
example : (Network.Ok ⟨4, 10 * 2 ^ 24, 8⟩) ∧ cidrMatch (.addr 4 (10 * 2 ^ 24 + 66051)) ⟨4, 10 * 2 ^ 24, 8⟩ = some true ∧
    cidrMatch (.addr 4 (11 * 2 ^ 24)) ⟨4, 10 * 2 ^ 24, 8⟩ = some false ∧
    cidrMatch (.addr 6 (10 * 2 ^ 24 + 66051)) ⟨4, 10 * 2 ^ 24, 8⟩ = some false := by
  refine ⟨⟨by decide, by decide, ⟨10, by decide⟩⟩, by decide, by decide, by decide⟩

end Props
