import Verif.Model.Format
import Verif.Model.Object
/-!
# Variable functions and input functions

Model of ttp/variable/gethostname.py, ttp/variable/getfilename.py, ttp/input/commands.py; `macro` of inputs is
`Format.inMacro`. Functions of time are parameters.
-/

namespace TTP
namespace InputFn
open Py

/-- `\S+` / `\S+?` -/
def word (greedy : Bool) : Re := Re.plus greedy (.cls .nspace)

/-- `.*(?=\n)` -/
def tail : Re := .seq (.star true (.cls .dot)) (.look (.cls (.lit '\n')))

/-- name of the only group -/
def hostGroup : Str := c!"1"

/-- `\n\S{1,2}:(\S+?)[>#].*(?=\n)`, ttp/variable/gethostname.py 14 -/
def sros : Re := .seq (.cls (.lit '\n')) (.seq (.seq (.cls .nspace) (.alt (.cls .nspace) .eps)) (.seq (.cls (.lit ':'))
  (.seq (.cap hostGroup (word false)) (.seq (.cls (.oneOf ['>', '#'])) tail))))

/-- `\n\S+:(\S+)#.*(?=\n)`, ttp/variable/gethostname.py 18 -/
def iosXr : Re := .seq (.cls (.lit '\n')) (.seq (word true) (.seq (.cls (.lit ':'))
  (.seq (.cap hostGroup (word true)) (.seq (.cls (.lit '#')) tail))))

/-- `\n(\S+)#.*(?=\n)`, ttp/variable/gethostname.py 19 -/
def iosPriv : Re := .seq (.cls (.lit '\n')) (.seq (.cap hostGroup (word true)) (.seq (.cls (.lit '#')) tail))

/-- `\n\S*@(\S+)>.*(?=\n)`, ttp/variable/gethostname.py 20 -/
def juniper : Re := .seq (.cls (.lit '\n')) (.seq (.star true (.cls .nspace)) (.seq (.cls (.lit '@'))
  (.seq (.cap hostGroup (word true)) (.seq (.cls (.lit '>')) tail))))

/-- `\n<(\S+)>.*(?=\n)`, ttp/variable/gethostname.py 21 -/
def huawei : Re := .seq (.cls (.lit '\n')) (.seq (.cls (.lit '<'))
  (.seq (.cap hostGroup (word true)) (.seq (.cls (.lit '>')) tail)))

/-- `\n(\S+)>.*(?=\n)`, ttp/variable/gethostname.py 22 -/
def iosExec : Re := .seq (.cls (.lit '\n')) (.seq (.cap hostGroup (word true)) (.seq (.cls (.lit '>')) tail))

/-- `\n(\S+ \(\S+\)) #.*(?=\n)`, ttp/variable/gethostname.py 24 -/
def fortigate : Re := .seq (.cls (.lit '\n')) (.seq (.cap hostGroup (.seq (word true) (.seq (.cls (.lit ' ')) (.seq (.cls (.lit '('))
  (.seq (word true) (.cls (.lit ')'))))))) (.seq (.cls (.lit ' ')) (.seq (.cls (.lit '#')) tail)))

/-- the expressions in the order of the list, ttp/variable/gethostname.py 13-26 -/
def hostREs : List Re := [sros, iosXr, iosPriv, juniper, huawei, iosExec, fortigate]

/-- `s.lstrip(cs)` -/
def lstripOf (cs : List Char) (s : Str) : Str := s.dropWhile cs.contains

/-- byte order marks, one after the other, ttp/variable/gethostname.py 27-32, 40-41 -/
def stripBom (s : Str) : Str := [['ï', '»', '¿'], ['þ', 'ÿ'], ['ÿ', 'þ'], ['\ufeff']].foldl (fun s cs => lstripOf cs s) s

/-- the loop over the expressions, ttp/variable/gethostname.py 34-44 -/
def findHost : List Re → Str → Option Str
  | [], _ => none
  | r :: rs, data =>
    match Re.finditer r data with
    | m :: _ => some (stripBom ((m.group hostGroup).getD []))
    | [] => findHost rs data

/-- `gethostname`, ttp/variable/gethostname.py 9-50; data that are not text raise in `finditer` -/
def gethostname (data : Val) : PyM Val :=
  match data with
  | .str s => pure ((findHost hostREs s).elim (.bool false) .str)
  | _ => throw .typeError

/-- what the machine gives: the clock (functions of ttp/variable/time_funcs.py) and `re` -/
structure InWorld where
  clock : Str → PyM Val
  rx : Str → PyM Re
  macros : Dict Str (Val → PyM Val)

/-- `_ttp_["variable"][name](data, dataname)`, ttp/ttp.py 2414; `getfilename`: ttp/variable/getfilename.py 1-3 -/
def callVar (W : InWorld) (name : Str) (data : Val) (dataname : Str) : PyM Val :=
  if name = c!"gethostname" then gethostname data
  else if name = c!"getfilename" then pure (.str dataname)
  else W.clock name

/-- `{host}[#>]` -/
def promptRe (host : Re) : Re := .seq host (.cls (.oneOf ['#', '>']))

/-- `{host}[#>] *{command} *\n([\S\s]+?)(?={host}[#>]|$)`, ttp/input/commands.py 10-12. Simplification: hostname and command are
expressions of their own (exact unless they contain `|`, an open bracket or a group reference). -/
def commandRe (host command : Re) : Re :=
  .seq (promptRe host) (.seq (.star true (.cls (.lit ' '))) (.seq command (.seq (.star true (.cls (.lit ' '))) (.seq (.cls (.lit '\n'))
    (.seq (.cap hostGroup (Re.plus false (.cls .anyc))) (.look (.alt (promptRe host) .eos)))))))

/-- the loop over the commands, ttp/input/commands.py 9-15 -/
def findCommands (W : InWorld) (host : Re) (data : Str) : List Str → PyM Str
  | [] => pure []
  | c :: cs => do
    let r ← W.rx c
    let rest ← findCommands W host data cs
    match Re.search (commandRe host r) data with
    | some m => pure (c!"\n" ++ m.text ++ c!"\n" ++ rest)
    | none => pure rest

/-- `extract_commands`, ttp/input/commands.py 4-18 -/
def extractCommands (W : InWorld) (data : Val) (commands : List Str) : PyM (Val × Option Bool) := do
  match ← gethostname data, data with
  | .str (h :: hs), .str s =>
    if commands = [] then pure (data, none)
    else do
      let found ← findCommands W (← W.rx (h :: hs)) s commands
      if found = [] then pure (data, none) else pure (.str found, none)
  | _, _ => pure (data, none)

/-- texts of arguments -/
def strArgs : List Val → PyM (List Str)
  | [] => pure []
  | .str s :: vs => do pure (s :: (← strArgs vs))
  | _ => throw .typeError

/-- `_ttp_["input"][name](data, *args, **kwargs)`, ttp/ttp.py 2397-2399: ttp/input/commands.py, ttp/input/macro.py, ttp/input/test.py.
Simplification: keyword arguments and arguments that are not texts raise. -/
def callIn (W : InWorld) (f : FnCall) (data : Val) : PyM (Val × Option Bool) :=
  if f.name = c!"extract_commands" then do extractCommands W data (← strArgs f.args)
  else if f.name = c!"macro" then
    match f.args with
    | [.str n] => Format.inMacro W.macros data n
    | _ => throw .typeError
  else if f.name = c!"test" then pure (data, none)
  else throw .keyError

end InputFn
end TTP
