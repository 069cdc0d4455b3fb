import Verif.Spec.Whole
import Verif.Spec.Template
import Verif.Spec.Dyn
import Verif.Spec.Tags
/-!
# Specification: a template that is only text
-/

namespace Spec
open Py TTP

/-- What an XML parser makes of a text `t` without tags that is written for the text `u` (the same text if it has no `<`, no `&`, no `]]>`, only
characters that XML allows and no carriage return): alone it is not XML, inside of elements it is their text. -/
structure ReadsPlain (parse : Str → Option Xml) (t u : Str) : Prop where
  alone : parse t = none
  inTemplate : parse (c!"<template>\n" ++ t ++ c!"\n</template>") = some (.mk c!"template" [] (some (c!"\n" ++ u ++ c!"\n")) [] none)
  inGroup : parse (c!"<template><group name=\"_anonymous_\">\n" ++ t ++ c!"\n</group></template>") =
    some (.mk c!"template" [] none [.mk c!"group" [(c!"name", c!"_anonymous_")] (some (c!"\n" ++ u ++ c!"\n")) [] none] none)

/-- the lines of the text are those of the template, apart from blank lines, comments and lines without variables -/
def LinesOf (tpl : List TplLine) (t : Str) : Prop :=
  SameLines (Format.splitlines (c!"\n" ++ t ++ c!"\n")) (tpl.map TplLine.source)

/-- What a template that is only text makes of the text `d`: every line of `d` is read as (at most) one template line, the lines are cut
into records at the first template line; the result is the record, or the list of records, or an empty dictionary if there is none. -/
def PlainMeans (tpl : List TplLine) (d : Str) (v : Val) : Prop :=
  ∃ reads recs, All2 (Reads tpl) (splitC '\n' d) reads ∧ All2 (IsRecordOf []) (segments (evsOf reads)) recs ∧
    v = if recs = [] then .dict [] else oneOrMany recs

end Spec
