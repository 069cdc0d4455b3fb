import Verif.Spec.Object
import Verif.Spec.Tags
import Verif.Spec.Group
import Verif.Spec.MatchStr
import Verif.Spec.Fmt
import Verif.Spec.Format
import Verif.Model.Outputs
/-!
# Specification: output tags, files, terminal, syslog
-/

namespace Spec
open Py TTP

/-- names that are options of an output, not functions -/
def outOptions : List Str := [c!"name", c!"returner", c!"filename", c!"format_attributes", c!"path", c!"headers", c!"condition", c!"functions"]

/-- the value of an option: `P` of what is written for it, or the old one -/
def Option' {β : Type} (all : Dict Str Val) (key : Str) (P : Val → β → Prop) (old new : β) : Prop :=
  match Dict.get? all key with
  | none => new = old
  | some v => P v new

/-- the output functions an attribute stands for: those of the pipe of `functions` that exist, or the function of the name of the attribute -/
inductive FuncsOf (C : TplCtx) : Str × Val → List FnCall → Prop
  | pipe {s : Str} {fs : List FnCall} : getAttributes C.load s = .ok fs → (∀ f ∈ fs, f.name ≠ c!"functions") →
      FuncsOf C (c!"functions", .str s) (fs.filter (fun f => C.isOutFn f.name))
  | own {n : Str} {v : Val} {f : FnCall} {fs : List FnCall} : n ∉ outOptions → C.isOutFn n = true →
      getAttributes C.load (n ++ c!"(" ++ pyStr v ++ c!")") = .ok (f :: fs) → FuncsOf C (n, v) [f]
  | option {n : Str} {v : Val} : n ∈ outOptions → n ≠ c!"functions" → FuncsOf C (n, v) []
  | other {n : Str} {v : Val} : n ∉ outOptions → C.isOutFn n = false → FuncsOf C (n, v) []

/-- What the attributes `all` make of an output: name, returners, condition and functions. -/
structure OutputOf (C : TplCtx) (all : Dict Str Val) (o o' : Outputter) : Prop where
  name : Option' all c!"name" (fun v n => ∃ s, v = .str s ∧ n = some s) o.name o'.name
  returners : Option' all c!"returner" (fun v rs => ∃ s, v = .str s ∧ rs = (splitC ',' s).map strip) o.returners o'.returners
  condition : Option' all c!"condition" (fun v c => ∃ f fs, getAttributes C.load (c!"condition(" ++ pyStr v ++ c!")") = .ok (f :: fs) ∧ c = some f.args)
    o.condition o'.condition
  funcs : ∃ fs, All2 (FuncsOf C) all fs ∧ o'.funcs = o.funcs ++ fs.flatten
  format : o'.format = o.format
  flag : o'.selfFlag = o.selfFlag

/-! ## The tag of an output -/

/-- The entries of `d` in their order, with the values of `e` where `e` has them, then the other entries of `e`. -/
def overlay (d e : Dict Str Val) : Dict Str Val :=
  d.map (fun kv => (kv.1, (Dict.get? e kv.1).getD kv.2)) ++ e.filter (fun kv => decide (kv.1 ∉ Dict.keys d))

/-- attributes of an output that gives none -/
def outDefaults : Dict Str Val := [(c!"returner", .str c!"self"), (c!"format", .str c!"raw"), (c!"load", .str c!"python")]

/-- the attributes of the tag over the defaults; the text of a Jinja2 output is read as text whatever the tag says -/
def outTagAttrs (x : Xml) : Dict Str Val :=
  (overlay outDefaults (x.attrib.map (fun kv => (kv.1, .str kv.2)))).map (fun kv =>
    if kv.1 = c!"load" ∧ Dict.get? x.attrib c!"format" = some c!"jinja2" then (kv.1, .str c!"text") else kv)

/-- What is in the tag: nothing if it has no text and no `include`, else what the loader makes of the text. -/
inductive TagLoad (C : TplCtx) (x : Xml) : Val → Prop
  | nothing : x.text.getD [] = [] → Dict.get? x.attrib c!"include" = none → TagLoad C x .none
  | loaded {l : Str} {f : Str → Dict Str Val → PyM Val} {v : Val} : ¬ (x.text.getD [] = [] ∧ Dict.get? x.attrib c!"include" = none) →
      Dict.get? (outTagAttrs x) c!"load" = some (.str l) → C.loader (lower l) = some f → f (x.text.getD []) (outTagAttrs x) = .ok v → TagLoad C x v

/-- all attributes: a dictionary in the text of the tag is laid over the attributes of the tag -/
def outAll (x : Xml) : Val → Dict Str Val
  | .dict d => overlay (outTagAttrs x) (d.filterMap strEntry)
  | _ => outTagAttrs x

/-- what an attribute is when formatters and returners get it: returners and headers are lists of words, a path is a list of names, times
are filled in the name of a file, the arguments of the condition and of the formatter are read; all other attributes are as written -/
def AttrFor (C : TplCtx) (strftime : Str → Str) (n : Str) (v v' : Val) : Prop :=
  if n = c!"returner" then ∃ s, v = .str s ∧ v' = .list (((splitC ',' s).map strip).map .str)
  else if n = c!"filename" then ∃ s, v = .str s ∧ v' = .str (strftime s)
  else if n = c!"path" then ∃ s, v = .str s ∧ v' = .list (((splitC '.' s).map strip).map .str)
  else if n = c!"headers" then (∃ s, v = .str s ∧ v' = .list (((splitC ',' s).map strip).map .str)) ∨ (∀ s, v ≠ .str s) ∧ v' = v
  else if n = c!"condition" then ∃ f fs, getAttributes C.load (c!"condition(" ++ pyStr v ++ c!")") = .ok (f :: fs) ∧ v' = .list f.args
  else if n = c!"format_attributes" then ∃ f fs, getAttributes C.load (c!"format_attributes(" ++ pyStr v ++ c!")") = .ok (f :: fs) ∧
    v' = .dict [(.s c!"args", .list f.args), (.s c!"kwargs", .dict (f.kwargs.map (fun kv => (.s kv.1, kv.2))))]
  else v' = v

/-! ## Traversal -/

/-- `w` is what the path leads to from `v`; from each item if `v` is a list; other values are kept -/
inductive Leads (path : List Str) : Val → Val → Prop
  | dict {d : Dict Key Val} {w : Val} : follow path (.dict d) = some w → Leads path (.dict d) w
  | list {xs ys : List Val} : xs.length = ys.length → (∀ (i : Nat) (x y : Val), xs[i]? = some x → ys[i]? = some y → Leads path x y) →
      Leads path (.list xs) (.list ys)
  | other {v : Val} : (∀ d, v ≠ .dict d) → (∀ xs, v ≠ .list xs) → Leads path v v

/-! ## Colours -/

/-- codes of red, green, yellow and the end of colour -/
def ansiRed : Str := c!"\x1b[0;31;40m"
def ansiGreen : Str := c!"\x1b[0;32;40m"
def ansiYellow : Str := c!"\x1b[0;33;40m"
def ansiEnd : Str := c!"\x1b[0m"

/-- `t` is `s` with codes of colours put in between the characters -/
inductive Coloured : Str → Str → Prop
  | nil : Coloured [] []
  | char {c : Char} {s t : Str} : Coloured s t → Coloured (c :: s) (c :: t)
  | code {k s t : Str} : k ∈ [ansiRed, ansiGreen, ansiYellow, ansiEnd] → Coloured s t → Coloured s (k ++ t)

/-- no character of a code -/
def NotInCodes (w : Str) : Prop := ∀ c ∈ w, ∀ k ∈ [ansiRed, ansiGreen, ansiYellow, ansiEnd], c ∉ k

/-- the words of a colour, each between the code of the colour and the end of colour -/
def colourPairs (code : Str) (words : List Str) : List (Str × Str) := words.map (fun w => (w, code ++ w ++ ansiEnd))

/-! ## Syslog -/

/-- The messages of one datum: JSON of what the path leads to, or of each of its items if it is a list and items are asked for. What is
empty, is not there or has no JSON text gives no message. -/
inductive Messages (json : Val → PyM Str) (path : List Str) (iterate : Bool) : Val → List Str → Prop
  | empty {v : Val} : v.truthy = false → Messages json path iterate v []
  | lost {v : Val} : v.truthy = true → (¬ ∃ w, Leads path v w) → Messages json path iterate v []
  | blank {v w : Val} : v.truthy = true → Leads path v w → w.truthy = false → Messages json path iterate v []
  | items {v : Val} {xs : List Val} : v.truthy = true → Leads path v (.list xs) → xs ≠ [] → iterate = true →
      Messages json path iterate v (xs.flatMap (fun x => (json x).toOption.toList))
  | whole {v w : Val} : v.truthy = true → Leads path v w → w.truthy = true → (iterate = false ∨ ∀ xs, w ≠ .list xs) →
      Messages json path iterate v (json w).toOption.toList

/-! ## Running an output -/

/-- what the returners of an output do, in order; `self` does nothing outside, a returner that does not exist is passed over -/
inductive Effects (W : OutFn.OutWorld) (t : OutFn.OutTag) (v : Val) : List Str → List OutFn.Eff → Prop
  | nil : Effects W t v [] []
  | file {rs : List Str} {es fs : List OutFn.Eff} : OutFn.fileReturner W t v = .ok es → Effects W t v rs fs → Effects W t v (c!"file" :: rs) (es ++ fs)
  | terminal {rs : List Str} {es fs : List OutFn.Eff} : OutFn.terminal t v = .ok es → Effects W t v rs fs → Effects W t v (c!"terminal" :: rs) (es ++ fs)
  | syslog {rs : List Str} {es fs : List OutFn.Eff} : OutFn.syslog W t v = .ok es → Effects W t v rs fs → Effects W t v (c!"syslog" :: rs) (es ++ fs)
  | other {r : Str} {rs : List Str} {fs : List OutFn.Eff} : r ∉ [c!"file", c!"terminal", c!"syslog"] → Effects W t v rs fs → Effects W t v (r :: rs) fs

/-- what one output does: nothing if its condition does not hold; else functions, formatter and returners run in this order -/
inductive OneTag (E : Engine) (W : OutFn.OutWorld) (vars : Dict Str Val) : OutFn.OutTag → Val → Val → OutFn.OutTag → List OutFn.Eff → Prop
  | skip {t : OutFn.OutTag} {data : Val} : ¬ CondMet vars t.out.condition → OneTag E W vars t data data t []
  | run {t : OutFn.OutTag} {data r1 r2 : Val} {es : List OutFn.Eff} : CondMet vars t.out.condition →
      Through (OutFn.engineOf E W t) t.out.funcs data r1 → Formatted (OutFn.engineOf E W t) t.out.format r1 r2 → Effects W t r2 t.out.returners es →
      OneTag E W vars t data (if t.out.selfFlag || decide (c!"self" ∈ t.out.returners) then r2 else data)
        { t with out := { t.out with selfFlag := t.out.selfFlag || decide (c!"self" ∈ t.out.returners) } } es

/-- the outputs of a template one after the other: each gets what the one before handed on -/
inductive TagChain (E : Engine) (W : OutFn.OutWorld) (vars : Dict Str Val) : List OutFn.OutTag → Val → Val → List OutFn.OutTag → List OutFn.Eff → Prop
  | nil (v : Val) : TagChain E W vars [] v v [] []
  | cons {t t' : OutFn.OutTag} {ts ts' : List OutFn.OutTag} {u v w : Val} {es fs : List OutFn.Eff} : OneTag E W vars t u v t' es →
      TagChain E W vars ts v w ts' fs → TagChain E W vars (t :: ts) u w (t' :: ts') (es ++ fs)

end Spec
