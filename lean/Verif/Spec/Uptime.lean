import Verif.Py.Str
/-!
# Specification vocabulary: a duration in words
-/

namespace Spec
open Py

/-- units of time -/
inductive TUnit where
  | years | months | weeks | days | hours | mins | secs
  deriving DecidableEq, Repr

/-- all units, from the longest -/
def TUnit.all : List TUnit := [.years, .months, .weeks, .days, .hours, .mins, .secs]

/-- the English word -/
def TUnit.word : TUnit → Str
  | .years => c!"year"
  | .months => c!"month"
  | .weeks => c!"week"
  | .days => c!"day"
  | .hours => c!"hour"
  | .mins => c!"minute"
  | .secs => c!"second"

/-- the name of the unit in the dictionary form of the result -/
def TUnit.name : TUnit → Str
  | .years => c!"years"
  | .months => c!"months"
  | .weeks => c!"weeks"
  | .days => c!"days"
  | .hours => c!"hours"
  | .mins => c!"mins"
  | .secs => c!"secs"

/-- its length in seconds: a year has 365 days, a month 30 -/
def TUnit.seconds : TUnit → Nat
  | .years => 365 * 24 * 60 * 60
  | .months => 30 * 24 * 60 * 60
  | .weeks => 7 * 24 * 60 * 60
  | .days => 24 * 60 * 60
  | .hours => 60 * 60
  | .mins => 60
  | .secs => 1

/-- a duration: for each unit nothing, or a number and whether the word is written with `s` at its end -/
def Duration : Type := TUnit → Option (Nat × Bool)

/-- one amount: `3 days` -/
def amountText (u : TUnit) (a : Nat × Bool) : Str := natStr a.1 ++ ' ' :: (u.word ++ if a.2 then ['s'] else [])

/-- `2 years, 27 weeks, 3 days` -/
def Duration.text (d : Duration) : Str := join [',', ' '] (TUnit.all.filterMap (fun u => (d u).map (amountText u)))

/-- how long it is -/
def Duration.seconds (d : Duration) : Nat := (TUnit.all.map (fun u => match d u with
  | some a => a.1 * u.seconds
  | none => 0)).sum

/-- there is at least one amount -/
def Duration.NonEmpty (d : Duration) : Prop := ∃ u, d u ≠ none

end Spec
