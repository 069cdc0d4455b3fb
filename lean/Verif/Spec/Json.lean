import Verif.Spec.Equal
/-!
# Specification: JSON texts (RFC 8259, with the names of the special numbers that Python knows)
-/

namespace Spec
open Py

/-- white space -/
def JBlank (s : Str) : Prop := ∀ c ∈ s, c = ' ' ∨ c = '\t' ∨ c = '\n' ∨ c = '\r'

/-- a decimal digit -/
def JDigit (c : Char) : Prop := '0' ≤ c ∧ c ≤ '9'

/-- the number that digits denote -/
def decimal : Str → Nat
  | [] => 0
  | c :: cs => (c.toNat - 48) * 10 ^ cs.length + decimal cs

/-- digits of an integer: zero, or a number that does not begin with zero -/
def IntDigits (ds : Str) : Prop := ds = ['0'] ∨ ∃ c cs, ds = c :: cs ∧ c ≠ '0' ∧ JDigit c ∧ ∀ d ∈ cs, JDigit d

/-- a point and digits, or nothing -/
def Fraction (t : Str) : Prop := t = [] ∨ ∃ ds, t = '.' :: ds ∧ ds ≠ [] ∧ ∀ d ∈ ds, JDigit d

/-- an exponent with or without sign, or nothing -/
def Exponent (t : Str) : Prop :=
  t = [] ∨ ∃ e sg ds, t = e :: (sg ++ ds) ∧ (e = 'e' ∨ e = 'E') ∧ (sg = [] ∨ sg = ['-'] ∨ sg = ['+']) ∧ ds ≠ [] ∧ ∀ d ∈ ds, JDigit d

/-- the value of a hexadecimal digit -/
inductive Hex1 : Char → Nat → Prop
  | digit (c : Char) : '0' ≤ c → c ≤ '9' → Hex1 c (c.toNat - '0'.toNat)
  | lower (c : Char) : 'a' ≤ c → c ≤ 'f' → Hex1 c (c.toNat - 'a'.toNat + 10)
  | upper (c : Char) : 'A' ≤ c → c ≤ 'F' → Hex1 c (c.toNat - 'A'.toNat + 10)

/-- four hexadecimal digits -/
inductive Hex4 : Str → Nat → Prop
  | mk {a b c d : Char} {w x y z : Nat} : Hex1 a w → Hex1 b x → Hex1 c y → Hex1 d z →
      Hex4 [a, b, c, d] (w * 4096 + x * 256 + y * 16 + z)

/-- escapes with one letter -/
def shortEscapes : List (Char × Char) :=
  [('"', '"'), ('\\', '\\'), ('/', '/'), ('b', Char.ofNat 8), ('f', Char.ofNat 12), ('n', '\n'), ('r', '\r'), ('t', '\t')]

/-- what stands between the quotes for a text -/
inductive JChars : Str → Str → Prop
  | nil : JChars [] []
  | plain (c : Char) {t s : Str} : 32 ≤ c.toNat → c ≠ '"' → c ≠ '\\' → JChars t s → JChars (c :: t) (c :: s)
  | short (e c : Char) {t s : Str} : (e, c) ∈ shortEscapes → JChars t s → JChars ('\\' :: e :: t) (c :: s)
  | unit {h : Str} (c : Char) {t s : Str} : Hex4 h c.toNat → JChars t s → JChars ('\\' :: 'u' :: (h ++ t)) (c :: s)
  | pair {h l : Str} {hi lo : Nat} (c : Char) {t s : Str} : Hex4 h hi → Hex4 l lo → 0xD800 ≤ hi → hi ≤ 0xDBFF → 0xDC00 ≤ lo → lo ≤ 0xDFFF →
      c.toNat = 0x10000 + (hi - 0xD800) * 0x400 + (lo - 0xDC00) → JChars t s →
      JChars ('\\' :: 'u' :: (h ++ ('\\' :: 'u' :: (l ++ t)))) (c :: s)

/-- a text in quotes -/
def JQuoted (t s : Str) : Prop := ∃ b, t = '"' :: (b ++ ['"']) ∧ JChars b s

/-- the dictionary of members in order: of equal names the last value holds -/
def ofMembers (ms : List (Str × Val)) : Dict Key Val := ms.foldl (fun d m => Dict.set d (.s m.1) m.2) []

mutual
/-- `JText fl t v`: `t` is a JSON text of `v`, without white space around. `fl` reads a number with point or exponent. -/
inductive JText (fl : Str → Str) : Str → Val → Prop
  | null : JText fl c!"null" .none
  | true : JText fl c!"true" (.bool true)
  | false : JText fl c!"false" (.bool false)
  | int {ds : Str} : IntDigits ds → JText fl ds (.int (decimal ds))
  | negInt {ds : Str} : IntDigits ds → JText fl ('-' :: ds) (.int (-(decimal ds : Int)))
  | flt {sg ds f e : Str} : (sg = [] ∨ sg = ['-']) → IntDigits ds → Fraction f → Exponent e → (f ≠ [] ∨ e ≠ []) →
      JText fl (sg ++ (ds ++ (f ++ e))) (.flt (fl (sg ++ (ds ++ (f ++ e)))))
  | nan : JText fl c!"NaN" (.flt c!"nan")
  | inf : JText fl c!"Infinity" (.flt c!"inf")
  | negInf : JText fl c!"-Infinity" (.flt c!"-inf")
  | str {t s : Str} : JQuoted t s → JText fl t (.str s)
  | emptyList {w : Str} : JBlank w → JText fl ('[' :: (w ++ [']'])) (.list [])
  | list {t : Str} {vs : List Val} : JItems fl t vs → JText fl ('[' :: (t ++ [']'])) (.list vs)
  | emptyDict {w : Str} : JBlank w → JText fl ('{' :: (w ++ ['}'])) (.dict [])
  | dict {t : Str} {ms : List (Str × Val)} : JMembers fl t ms → JText fl ('{' :: (t ++ ['}'])) (.dict (ofMembers ms))
/-- values with commas between -/
inductive JItems (fl : Str → Str) : Str → List Val → Prop
  | one {a t b : Str} {v : Val} : JBlank a → JText fl t v → JBlank b → JItems fl (a ++ (t ++ b)) [v]
  | cons {a t b q : Str} {v : Val} {vs : List Val} : JBlank a → JText fl t v → JBlank b → JItems fl q vs →
      JItems fl (a ++ (t ++ (b ++ (',' :: q)))) (v :: vs)
/-- names and values with commas between -/
inductive JMembers (fl : Str → Str) : Str → List (Str × Val) → Prop
  | one {a k b c t d : Str} {n : Str} {v : Val} : JBlank a → JQuoted k n → JBlank b → JBlank c → JText fl t v → JBlank d →
      JMembers fl (a ++ (k ++ (b ++ (':' :: (c ++ (t ++ d)))))) [(n, v)]
  | cons {a k b c t d q : Str} {n : Str} {v : Val} {ms : List (Str × Val)} : JBlank a → JQuoted k n → JBlank b → JBlank c → JText fl t v → JBlank d →
      JMembers fl q ms → JMembers fl (a ++ (k ++ (b ++ (':' :: (c ++ (t ++ (d ++ (',' :: q)))))))) ((n, v) :: ms)
end

/-- a JSON document: a value with white space around -/
def JDocument (fl : Str → Str) (t : Str) (v : Val) : Prop := ∃ a b c, t = a ++ (b ++ c) ∧ JBlank a ∧ JText fl b v ∧ JBlank c

/-- a number with point or exponent that reads as itself, as `repr` writes them, or one of the special numbers -/
def FloatRepr (fl : Str → Str) (t : Str) : Prop :=
  t = c!"nan" ∨ t = c!"inf" ∨ t = c!"-inf" ∨
  (fl t = t ∧ ∃ sg ds f e, t = sg ++ (ds ++ (f ++ e)) ∧ (sg = [] ∨ sg = ['-']) ∧ IntDigits ds ∧ Fraction f ∧ Exponent e ∧ (f ≠ [] ∨ e ≠ []))

mutual
/-- every float in the data is written as `repr` writes it -/
def FloatsOk (fl : Str → Str) : Val → Prop
  | .flt t => FloatRepr fl t
  | .list xs => FloatsOkL fl xs
  | .dict kvs => FloatsOkD fl kvs
  | _ => True
def FloatsOkL (fl : Str → Str) : List Val → Prop
  | [] => True
  | x :: xs => FloatsOk fl x ∧ FloatsOkL fl xs
def FloatsOkD (fl : Str → Str) : List (Key × Val) → Prop
  | [] => True
  | (_, v) :: kvs => FloatsOk fl v ∧ FloatsOkD fl kvs
end

/-- all keys are texts, or all are numbers -/
def OneKindKeys (ks : List Key) : Prop := (∀ k ∈ ks, ∃ s, k = Key.s s) ∨ ∀ k ∈ ks, ∃ n, k = Key.i n

mutual
/-- in every dictionary of the data the keys are all texts or all numbers -/
def OneKind : Val → Prop
  | .list xs => OneKindL xs
  | .dict kvs => OneKindKeys (kvs.map Prod.fst) ∧ OneKindD kvs
  | _ => True
def OneKindL : List Val → Prop
  | [] => True
  | x :: xs => OneKind x ∧ OneKindL xs
def OneKindD : List (Key × Val) → Prop
  | [] => True
  | (_, v) :: kvs => OneKind v ∧ OneKindD kvs
end

mutual
/-- in every dictionary of the data all keys are texts -/
def TextKeys : Val → Prop
  | .list xs => TextKeysL xs
  | .dict kvs => (∀ k ∈ kvs.map Prod.fst, ∃ s, k = Key.s s) ∧ TextKeysD kvs
  | _ => True
def TextKeysL : List Val → Prop
  | [] => True
  | x :: xs => TextKeys x ∧ TextKeysL xs
def TextKeysD : List (Key × Val) → Prop
  | [] => True
  | (_, v) :: kvs => TextKeys v ∧ TextKeysD kvs
end

/-- the name of a key in JSON: a number as digits -/
def jsonName : Key → Str
  | .s s => s
  | .i n => intStr n

/-- order of keys: texts by code points, numbers by value -/
def KeyLt : Key → Key → Prop
  | .s a, .s b => a < b
  | .i a, .i b => a < b
  | _, _ => False

/-- `Mirrors v w`: `w` has the same data as `v`, every key is a text, and the keys of each dictionary are in ascending order. -/
inductive Mirrors : Val → Val → Prop
  | none : Mirrors .none .none
  | bool (b : Bool) : Mirrors (.bool b) (.bool b)
  | int (n : Int) : Mirrors (.int n) (.int n)
  | flt (t : Str) : Mirrors (.flt t) (.flt t)
  | str (s : Str) : Mirrors (.str s) (.str s)
  | list {a b : List Val} : a.length = b.length → (∀ (i : Nat) (x y : Val), a[i]? = some x → b[i]? = some y → Mirrors x y) → Mirrors (.list a) (.list b)
  | dict {a b : Dict Key Val} (ks : List Key) : ks.Pairwise KeyLt → (∀ k, k ∈ ks ↔ k ∈ Dict.keys a) →
      Dict.keys b = ks.map (fun k => Key.s (jsonName k)) →
      (∀ (k : Key) (x y : Val), Dict.get? a k = some x → Dict.get? b (.s (jsonName k)) = some y → Mirrors x y) → Mirrors (.dict a) (.dict b)

end Spec
