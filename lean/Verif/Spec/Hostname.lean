import Verif.Model.Inputs
/-!
# Specification: prompts

What a prompt is, in terms of the texts of lines only.
-/

namespace Spec
open Py TTP

/-- no white space -/
def Blankless (s : Str) : Prop := ∀ c ∈ s, isSpace c = false

/-- kinds of prompts, in the order in which they are looked for -/
inductive Prompt where
  /-- `A:host>`, `*A:host#` -/
  | sros
  /-- `RP/0/0/CPU0:host#` -/
  | xr
  /-- `host#` -/
  | priv
  /-- `user@host>` -/
  | juniper
  /-- `<host>` -/
  | huawei
  /-- `host>` -/
  | exec
  /-- `host (context) #` -/
  | forti
  deriving DecidableEq

/-- the order -/
def Prompt.all : List Prompt := [.sros, .xr, .priv, .juniper, .huawei, .exec, .forti]

/-- one way to read a line as a prompt: what stands before the name and the name -/
def Reading : Prompt → Str → Str → Str → Prop
  | .sros, t, p, h => Blankless p ∧ (p.length = 1 ∨ p.length = 2) ∧ Blankless h ∧ h ≠ [] ∧
      ∃ c r, (c = '>' ∨ c = '#') ∧ t = p ++ ':' :: (h ++ c :: r)
  | .xr, t, p, h => Blankless p ∧ p ≠ [] ∧ Blankless h ∧ h ≠ [] ∧ ∃ r, t = p ++ ':' :: (h ++ '#' :: r)
  | .priv, t, p, h => p = [] ∧ Blankless h ∧ h ≠ [] ∧ ∃ r, t = h ++ '#' :: r
  | .juniper, t, p, h => Blankless p ∧ Blankless h ∧ h ≠ [] ∧ ∃ r, t = p ++ '@' :: (h ++ '>' :: r)
  | .huawei, t, p, h => p = [] ∧ Blankless h ∧ h ≠ [] ∧ ∃ r, t = '<' :: (h ++ '>' :: r)
  | .exec, t, p, h => p = [] ∧ Blankless h ∧ h ≠ [] ∧ ∃ r, t = h ++ '>' :: r
  | .forti, t, p, h => p = [] ∧ ∃ a v r, Blankless a ∧ a ≠ [] ∧ Blankless v ∧ v ≠ [] ∧ h = a ++ c!" (" ++ v ++ c!")" ∧ t = h ++ c!" #" ++ r

/-- of several readings of a line: the one with the longest text before the name, then the longest name (for `sros` the shortest) -/
def Better (k : Prompt) (p h p' h' : Str) : Prop :=
  p'.length < p.length ∨ p'.length = p.length ∧ (if k = .sros then h.length < h'.length else h'.length < h.length)

/-- the line is a prompt of this kind with this name -/
def PromptOf (k : Prompt) (t h : Str) : Prop := ∃ p, Reading k t p h ∧ ∀ p' h', Reading k t p' h' → ¬ Better k p' h' p h

/-- the first line that is a prompt of this kind -/
def FirstPrompt (k : Prompt) (lines : List Str) (h : Str) : Prop :=
  ∃ l1 t l2, lines = l1 ++ t :: l2 ∧ PromptOf k t h ∧ ∀ t' ∈ l1, ∀ h', ¬ PromptOf k t' h'

/-- the name found in a text: the first prompt of the first kind of which there is any -/
def HostOf (lines : List Str) (h : Str) : Prop :=
  ∃ k1 k k2, Prompt.all = k1 ++ k :: k2 ∧ FirstPrompt k lines h ∧ ∀ k' ∈ k1, ∀ t ∈ lines, ∀ h', ¬ PromptOf k' t h'

/-- characters of byte order marks -/
def markChars : List Char := ['ï', '»', '¿', 'þ', 'ÿ', '\ufeff']

end Spec
