import Verif.Model.Format
import Verif.Py.RegexText
/-!
# JSON: the `json` formatter and the `json` loader

Model of `json_formatter` (ttp/formatters/json_formatter.py), of `load_json` (ttp/utils/loaders.py 250-264) and of what they use of Python's
`json` module (`json/encoder.py`, `json/decoder.py`, `json/scanner.py` of CPython). Simplifications: texts have no lone surrogates (a text
with an escape of one cannot be read), no limit on the nesting depth and on the number of digits. A float is the text `repr` gives.
-/

namespace TTP
open Py

namespace Json

/-! ## Writing -/

/-- how a text is laid out: number of spaces per level (`none`: one line), and whether the keys are sorted; `indent` and `sort_keys` of
`json.dumps` -/
structure Style where
  indent : Option Nat
  sort : Bool
  deriving DecidableEq

/-- `dumps(data, sort_keys=True, indent=4, separators=(",", ": "))`, ttp/formatters/json_formatter.py 8 -/
def pretty : Style := ⟨some 4, true⟩

/-- `dumps(data)`, ttp/returners/syslog_returner.py 61, 72 -/
def compact : Style := ⟨none, false⟩

/-- `newline_indent` at a level, json/encoder.py `_iterencode_list`: nothing on one line -/
def newline (st : Style) (level : Nat) : Str :=
  match st.indent with
  | none => []
  | some n => '\n' :: List.replicate (n * level) ' '

/-- what follows a comma: the separator `", "` on one line, `","` and a new line otherwise -/
def afterComma (st : Style) (level : Nat) : Str :=
  match st.indent with
  | none => [' ']
  | some n => '\n' :: List.replicate (n * level) ' '

/-- a hexadecimal digit of `'{0:04x}'.format` -/
def hexChar (n : Nat) : Char := if n < 10 then Char.ofNat (48 + n) else Char.ofNat (87 + n)

/-- `'\\u{0:04x}'.format(n)` -/
def codeUnit (n : Nat) : Str :=
  ['\\', 'u', hexChar (n / 4096 % 16), hexChar (n / 256 % 16), hexChar (n / 16 % 16), hexChar (n % 16)]

/-- one character in a text, `py_encode_basestring_ascii` of json/encoder.py -/
def escaped (c : Char) : Str :=
  if c = '"' then ['\\', '"']
  else if c = '\\' then ['\\', '\\']
  else if c.toNat = 10 then ['\\', 'n']
  else if c.toNat = 13 then ['\\', 'r']
  else if c.toNat = 9 then ['\\', 't']
  else if c.toNat = 12 then ['\\', 'f']
  else if c.toNat = 8 then ['\\', 'b']
  else if 32 ≤ c.toNat ∧ c.toNat ≤ 126 then [c]
  else if c.toNat < 65536 then codeUnit c.toNat
  else codeUnit (55296 + (c.toNat - 65536) / 1024 % 1024) ++ codeUnit (56320 + (c.toNat - 65536) % 1024)

/-- a text in quotes -/
def quoted (s : Str) : Str := '"' :: (s.flatMap escaped ++ ['"'])

/-- `floatstr` of json/encoder.py: `repr`, but other names of the special numbers -/
def floatText (t : Str) : Str :=
  if t = c!"nan" then c!"NaN" else if t = c!"inf" then c!"Infinity" else if t = c!"-inf" then c!"-Infinity" else t

/-- a key as text, json/encoder.py `_iterencode_dict` -/
def keyText : Key → Str
  | .s s => s
  | .i n => intStr n

/-- order of two keys -/
def keyLe : Key → Key → Bool
  | .s a, .s b => strLe a b
  | .i a, .i b => decide (a ≤ b)
  | .s _, .i _ => false
  | .i _, .s _ => true

/-- `items = sorted(dct.items())`, json/encoder.py `_iterencode_dict`; texts and numbers cannot be compared -/
def sortItems {α : Type} (kvs : List (Key × α)) : PyM (List (Key × α)) :=
  if Format.intKeys (kvs.map Prod.fst) = [] ∨ Format.strKeys (kvs.map Prod.fst) = [] then pure (sorted (fun a b => keyLe a.1 b.1) kvs)
  else throw .typeError

/-- the items, sorted or not -/
def order {α : Type} (st : Style) (kvs : List (Key × α)) : PyM (List (Key × α)) := if st.sort then sortItems kvs else pure kvs

/-- parts of a list or dictionary between brackets; nothing but the brackets if there is none -/
def bracket (st : Style) (level : Nat) (l r : Char) : List Str → Str
  | [] => [l, r]
  | p :: ps => l :: (newline st (level + 1) ++ (join (',' :: afterComma st (level + 1)) (p :: ps) ++ (newline st level ++ [r])))

/-- an item of a dictionary: the key in quotes, a colon, a space and the value -/
def member (kv : Key × Str) : Str := quoted (keyText kv.1) ++ (':' :: ' ' :: kv.2)

mutual
/-- `_iterencode` of json/encoder.py. Simplification: the texts of the values of a dictionary are made before its items are sorted. -/
def dump (st : Style) (level : Nat) : Val → PyM Str
  | .none => pure c!"null"
  | .bool true => pure c!"true"
  | .bool false => pure c!"false"
  | .int n => pure (intStr n)
  | .flt t => pure (floatText t)
  | .str s => pure (quoted s)
  | .list xs => do pure (bracket st level '[' ']' (← dumpL st (level + 1) xs))
  | .dict kvs => do
    let ps ← dumpD st (level + 1) kvs
    let ps' ← order st ps
    pure (bracket st level '{' '}' (ps'.map member))
/-- texts of the items of a list -/
def dumpL (st : Style) (level : Nat) : List Val → PyM (List Str)
  | [] => pure []
  | x :: xs => do
    let t ← dump st level x
    let ts ← dumpL st level xs
    pure (t :: ts)
/-- texts of the values of a dictionary -/
def dumpD (st : Style) (level : Nat) : List (Key × Val) → PyM (List (Key × Str))
  | [] => pure []
  | (k, x) :: xs => do
    let t ← dump st level x
    let ts ← dumpD st level xs
    pure ((k, t) :: ts)
end

/-- `json_formatter`, ttp/formatters/json_formatter.py 4-8 -/
def jsonFormatter (data : Val) : PyM Str := dump pretty 0 data

/-! ## Reading -/

/-- white space of json/decoder.py -/
def isWs (c : Char) : Bool := c = ' ' || c = '\t' || c = '\n' || c = '\r'

/-- `_w(s, idx).end()` of json/decoder.py -/
def skipWs (s : Str) : Str := s.dropWhile isWs

/-- value of a hexadecimal digit -/
def hexVal (c : Char) : Option Nat :=
  if 48 ≤ c.toNat ∧ c.toNat ≤ 57 then some (c.toNat - 48)
  else if 97 ≤ c.toNat ∧ c.toNat ≤ 102 then some (c.toNat - 87)
  else if 65 ≤ c.toNat ∧ c.toNat ≤ 70 then some (c.toNat - 55)
  else none

/-- four digits after `\u`, `_decode_uXXXX` of json/decoder.py -/
def hex4 : Str → Option (Nat × Str)
  | a :: b :: c :: d :: r => do
    let w ← hexVal a
    let x ← hexVal b
    let y ← hexVal c
    let z ← hexVal d
    pure (((w * 16 + x) * 16 + y) * 16 + z, r)
  | _ => none

/-- `BACKSLASH` of json/decoder.py -/
def short (e : Char) : Option Char :=
  if e = '"' then some '"' else if e = '\\' then some '\\' else if e = '/' then some '/'
  else if e = 'b' then some (Char.ofNat 8) else if e = 'f' then some (Char.ofNat 12) else if e = 'n' then some '\n'
  else if e = 'r' then some '\r' else if e = 't' then some '\t' else none

/-- the second half of a surrogate pair, `py_scanstring` of json/decoder.py -/
def lowHalf (hi : Nat) (s : Str) : Option (Char × Str) :=
  match s with
  | '\\' :: 'u' :: r =>
    match hex4 r with
    | some (lo, r') =>
      if 56320 ≤ lo ∧ lo ≤ 57343 then some (Char.ofNat (65536 + (hi - 55296) * 1024 + (lo - 56320)), r') else none
    | none => none
  | _ => none

/-- the character of a code unit, `py_scanstring` of json/decoder.py; a lone surrogate is no character (simplification) -/
def unitChar (n : Nat) (r : Str) : Option (Char × Str) :=
  if 55296 ≤ n ∧ n ≤ 56319 then lowHalf n r
  else if 56320 ≤ n ∧ n ≤ 57343 then none
  else some (Char.ofNat n, r)

/-- what follows a backslash, `py_scanstring` of json/decoder.py -/
def escape : Str → Option (Char × Str)
  | [] => none
  | e :: r =>
    if e = 'u' then
      match hex4 r with
      | some (n, r') => unitChar n r'
      | none => none
    else (short e).map (fun c => (c, r))

/-- put a character in front -/
def push (c : Char) : Option (Str × Str) → Option (Str × Str)
  | some (s, r) => some (c :: s, r)
  | none => none

/-- the rest of a text after its quote, `py_scanstring` of json/decoder.py (strict): the text and what follows its closing quote -/
def chars : Nat → Str → Option (Str × Str)
  | 0, _ => none
  | _ + 1, [] => none
  | fuel + 1, c :: r =>
    if c = '"' then some ([], r)
    else if c = '\\' then
      match escape r with
      | some (x, r') => push x (chars fuel r')
      | none => none
    else if c.toNat < 32 then none
    else push c (chars fuel r)

/-- digits before point and exponent: a zero, or digits that do not begin with one; `NUMBER_RE` of json/scanner.py -/
def intPart : Str → Option (Str × Str)
  | '0' :: r => some (['0'], r)
  | c :: r => if isDigit c then some (c :: (ReText.digitRun r).1, (ReText.digitRun r).2) else none
  | [] => none

/-- `(\.\d+)?` of `NUMBER_RE` -/
def fracPart : Str → Str × Str
  | '.' :: r => if (ReText.digitRun r).1 = [] then ([], '.' :: r) else ('.' :: (ReText.digitRun r).1, (ReText.digitRun r).2)
  | s => ([], s)

/-- `[-+]?` -/
def sign : Str → Str × Str
  | '-' :: r => (['-'], r)
  | '+' :: r => (['+'], r)
  | s => ([], s)

/-- `([eE][-+]?\d+)?` of `NUMBER_RE` -/
def expPart : Str → Str × Str
  | [] => ([], [])
  | c :: r =>
    if c = 'e' ∨ c = 'E' then
      if (ReText.digitRun (sign r).2).1 = [] then ([], c :: r)
      else (c :: ((sign r).1 ++ (ReText.digitRun (sign r).2).1), (ReText.digitRun (sign r).2).2)
    else ([], c :: r)

/-- an integer with its sign -/
def intVal (neg : Bool) (ds : Str) : Int := if neg then -(natOfDigits ds : Int) else (natOfDigits ds : Int)

/-- a number after its sign, json/scanner.py `_scan_once`; `fl` is `repr(float(text))` -/
def unsigned (fl : Str → Str) (neg : Bool) (s : Str) : Option (Val × Str) :=
  match intPart s with
  | none => none
  | some (ds, r) =>
    if (fracPart r).1 = [] ∧ (expPart (fracPart r).2).1 = [] then some (.int (intVal neg ds), r)
    else some (.flt (fl ((if neg then ['-'] else []) ++ (ds ++ ((fracPart r).1 ++ (expPart (fracPart r).2).1)))), (expPart (fracPart r).2).2)

/-- a word at the beginning -/
def word (w : Str) (v : Val) (s : Str) : Option (Val × Str) := if startsWith s w then some (v, s.drop w.length) else none

/-- words and numbers, json/scanner.py `_scan_once` -/
def scalar (fl : Str → Str) (s : Str) : Option (Val × Str) :=
  match s with
  | [] => none
  | c :: r =>
    if c = 'n' then word c!"null" .none s
    else if c = 't' then word c!"true" (.bool true) s
    else if c = 'f' then word c!"false" (.bool false) s
    else if c = 'N' then word c!"NaN" (.flt c!"nan") s
    else if c = 'I' then word c!"Infinity" (.flt c!"inf") s
    else if c = '-' then if startsWith s c!"-Infinity" then some (.flt c!"-inf", s.drop 9) else unsigned fl true r
    else unsigned fl false s

/-- after an item of a list: `]` or a comma, `JSONArray` of json/decoder.py -/
def nextItem (more : Str → Option (List Val × Str)) (v : Val) (s : Str) : Option (List Val × Str) :=
  match s with
  | ']' :: r => some ([v], r)
  | ',' :: r =>
    match more (skipWs r) with
    | some (vs, r') => some (v :: vs, r')
    | none => none
  | _ => none

/-- after an item of a dictionary: `}` or a comma, `JSONObject` of json/decoder.py -/
def nextMember (more : Str → Option (List (Str × Val) × Str)) (k : Str) (v : Val) (s : Str) : Option (List (Str × Val) × Str) :=
  match s with
  | '}' :: r => some ([(k, v)], r)
  | ',' :: r =>
    match more (skipWs r) with
    | some (vs, r') => some ((k, v) :: vs, r')
    | none => none
  | _ => none

/-- a key and its colon, `JSONObject` of json/decoder.py -/
def keyPart (s : Str) : Option (Str × Str) :=
  match s with
  | '"' :: r =>
    match chars (r.length + 1) r with
    | some (k, r') =>
      match skipWs r' with
      | ':' :: q => some (k, skipWs q)
      | _ => none
    | none => none
  | _ => none

/-- `dict(pairs)`: of equal keys the last value -/
def ofPairs (kvs : List (Str × Val)) : Dict Key Val := kvs.foldl (fun d kv => Dict.set d (.s kv.1) kv.2) []

/-- a list after its bracket -/
def listOf (more : Str → Option (List Val × Str)) (s : Str) : Option (Val × Str) :=
  match s with
  | ']' :: r => some (.list [], r)
  | s =>
    match more s with
    | some (vs, r) => some (.list vs, r)
    | none => none

/-- a dictionary after its bracket -/
def dictOf (more : Str → Option (List (Str × Val) × Str)) (s : Str) : Option (Val × Str) :=
  match s with
  | '}' :: r => some (.dict [], r)
  | s =>
    match more s with
    | some (kvs, r) => some (.dict (ofPairs kvs), r)
    | none => none

/-- a text after its quote -/
def textOf (r : Str) : Option (Val × Str) :=
  match chars (r.length + 1) r with
  | some (s, r') => some (.str s, r')
  | none => none

mutual
/-- `_scan_once` of json/scanner.py: a value at the beginning of a text, and what follows it -/
def value (fl : Str → Str) : Nat → Str → Option (Val × Str)
  | 0, _ => none
  | _ + 1, [] => none
  | fuel + 1, c :: r =>
    if c = '"' then textOf r
    else if c = '[' then listOf (items fl fuel) (skipWs r)
    else if c = '{' then dictOf (members fl fuel) (skipWs r)
    else scalar fl (c :: r)
/-- items of a list up to the bracket, `JSONArray` of json/decoder.py -/
def items (fl : Str → Str) : Nat → Str → Option (List Val × Str)
  | 0, _ => none
  | fuel + 1, s =>
    match value fl fuel s with
    | some (v, r) => nextItem (items fl fuel) v (skipWs r)
    | none => none
/-- items of a dictionary up to the bracket, `JSONObject` of json/decoder.py -/
def members (fl : Str → Str) : Nat → Str → Option (List (Str × Val) × Str)
  | 0, _ => none
  | fuel + 1, s =>
    match keyPart s with
    | some (k, q) =>
      match value fl fuel q with
      | some (v, r) => nextMember (members fl fuel) k v (skipWs r)
      | none => none
    | none => none
end

/-- `json.loads`, json/decoder.py `JSONDecoder.decode`: `none` is an exception; a byte order mark is none of the white space -/
def loads (fl : Str → Str) (s : Str) : Option Val :=
  match value fl (s.length + 1) (skipWs s) with
  | some (v, r) => if skipWs r = [] then some v else none
  | none => none

/-- `load_json` without `include`, ttp/utils/loaders.py 250-264: any exception is logged, and the result is `None` -/
def loadJson (fl : Str → Str) (s : Str) : Val := (loads fl s).getD .none

end Json
end TTP
