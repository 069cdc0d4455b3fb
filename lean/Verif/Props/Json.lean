import Verif.Proofs.Json3
/-!
# C133, C134: JSON

`Json.jsonFormatter v` is the text that the formatter `json` makes of the results, `Json.dump Json.compact 0 v` is what the syslog returner
sends, `Json.loadJson fl s` what the loader `json` makes of a text. The grammar of JSON is in `Spec/Json`.
-/

namespace Props
open Py Spec TTP

/-! ## C133 -/

/-- C133. The text that the formatter `json` makes of results is a JSON document. Any reader of JSON gets the data back from it, with texts for
the keys and the keys of every dictionary in ascending order. -/
theorem C133_json (fl : Str → Str) (v : Val) (t : Str) (hw : DeepWF v) (hf : FloatsOk fl v) (h : Json.jsonFormatter v = .ok t) :
    ∃ w, JDocument fl t w ∧ Mirrors v w := by
  obtain ⟨w, h1, h2⟩ := Json.dump_text (fl := fl) (Json.mirrors_closed Json.pretty rfl) v 0 t h hw hf
  exact ⟨w, ⟨[], t, [], by simp, Json.blank_nil, h1, Json.blank_nil⟩, h2⟩

/-- C133. If all keys are texts, the data that are read equal the results. -/
theorem C133_equal (fl : Str → Str) (v : Val) (t : Str) (hw : DeepWF v) (hf : FloatsOk fl v) (hk : TextKeys v) (h : Json.jsonFormatter v = .ok t) :
    ∃ w, JDocument fl t w ∧ SameVal v w := by
  obtain ⟨w, h1, h2⟩ := C133_json fl v t hw hf h
  exact ⟨w, h1, Json.mirrors_same h2 hk⟩

/-- C133. There is a text for all results, unless a dictionary has both texts and numbers as keys; then `TypeError` is raised. -/
theorem C133_defined (v : Val) : (OneKind v → ∃ t, Json.jsonFormatter v = .ok t) ∧ (¬ OneKind v → Json.jsonFormatter v = .error .typeError) := by
  constructor
  · intro h; exact (Json.dump_ok_iff Json.pretty rfl v 0).2 h
  · intro h
    cases hd : Json.jsonFormatter v with
    | ok t => exact absurd ((Json.dump_ok_iff Json.pretty rfl v 0).1 ⟨t, hd⟩) h
    | error e => rw [Json.dump_error _ _ _ _ hd]

/-- C133. The text has only printable characters of ASCII and line ends, whatever characters the results have. -/
theorem C133_ascii (fl : Str → Str) (v : Val) (t : Str) (hf : FloatsOk fl v) (h : Json.jsonFormatter v = .ok t) :
    ∀ c ∈ t, c = '\n' ∨ (' ' ≤ c ∧ c ≤ '~') := by
  intro c hc
  exact (Json.dump_plain (fl := fl) Json.pretty v 0 t h hf c hc).imp id (fun h => ⟨h.1, h.2⟩)

/-- C134. A text is a document of one value only. -/
theorem C134_unambiguous (fl : Str → Str) (s : Str) (v w : Val) (hv : JDocument fl s v) (hw : JDocument fl s w) : v = w := by
  have h1 := (Json.loads_iff fl s v).2 hv
  have h2 := (Json.loads_iff fl s w).2 hw
  rw [h1] at h2
  exact Option.some.inj h2

/-- C133. Different results have different texts: results with the same text mirror the same data. -/
theorem C133_different (fl : Str → Str) (v v' : Val) (t : Str) (hw : DeepWF v) (hw' : DeepWF v') (hf : FloatsOk fl v) (hf' : FloatsOk fl v')
    (h : Json.jsonFormatter v = .ok t) (h' : Json.jsonFormatter v' = .ok t) : ∃ w, Mirrors v w ∧ Mirrors v' w := by
  obtain ⟨w, h1, h2⟩ := C133_json fl v t hw hf h
  obtain ⟨w', h1', h2'⟩ := C133_json fl v' t hw' hf' h'
  rw [C134_unambiguous fl t w w' h1 h1'] at h2
  exact ⟨w', h2, h2'⟩

/-- C133. What the syslog returner sends for an item with texts as keys is a JSON document of exactly this item, keys in their order. -/
theorem C133_compact (fl : Str → Str) (v : Val) (t : Str) (hw : DeepWF v) (hf : FloatsOk fl v) (hk : TextKeys v) (h : Json.dump Json.compact 0 v = .ok t) :
    JDocument fl t v := by
  obtain ⟨w, h1, h2⟩ := Json.dump_text (fl := fl) (Json.same_closed Json.compact rfl) v 0 t h hw hf
  rw [h2 hk] at h1
  exact ⟨[], t, [], by simp, Json.blank_nil, h1, Json.blank_nil⟩

/-- C133, what does not hold: numbers as keys (`dynamic_path_key_to_int`) are texts after reading, so that the data differ; and a path that
gives numbers beside texts as keys has no JSON at all. -/
theorem C133_number_keys (fl : Str → Str) :
    (∃ t w, Json.jsonFormatter (.dict [(.i 10, .str c!"a"), (.i 9, .str c!"b")]) = .ok t ∧ JDocument fl t w ∧
      w = .dict [(.s c!"9", .str c!"b"), (.s c!"10", .str c!"a")] ∧ ¬ SameVal (.dict [(.i 10, .str c!"a"), (.i 9, .str c!"b")]) w) ∧
    Json.jsonFormatter (.dict [(.i 10, .str c!"a"), (.s c!"b", .str c!"b")]) = .error .typeError := by
  constructor
  · refine ⟨c!"{\n    \"9\": \"b\",\n    \"10\": \"a\"\n}", _, by decide +kernel, (Json.loads_iff fl _ (.dict [(.s c!"9", .str c!"b"), (.s c!"10", .str c!"a")])).1 ?_, rfl, ?_⟩
    · rfl
    · intro h
      cases h with
      | dict h1 _ =>
        obtain ⟨y, hy⟩ := (h1 (.i 10)).1 ⟨_, rfl⟩
        exact absurd hy (by simp [Dict.get?])
  · decide +kernel

namespace Ex

/-- results with several kinds of values -/
def jres : Val := .list [.dict [(.s c!"vlans", .list [.int 10, .int (-2)]), (.s c!"é \"x\"\n", .none), (.s c!"up", .bool true), (.s c!"load", .flt c!"0.5"),
  (.s c!"sub", .dict [])]]

theorem jres_wf : DeepWF jres := by
  simp [jres, DeepWF, DeepWFL, DeepWFD]

theorem half_ok : FloatRepr id c!"0.5" :=
  Or.inr (Or.inr (Or.inr ⟨rfl, [], ['0'], ['.', '5'], [], rfl, Or.inl rfl, Or.inl rfl, Or.inr ⟨['5'], rfl, by simp, fun d hd => by rw [List.mem_singleton.1 hd]; exact ⟨by decide, by decide⟩⟩, Or.inl rfl, Or.inl (by simp)⟩))

theorem jres_floats : FloatsOk id jres := by
  simp [jres, FloatsOk, FloatsOkL, FloatsOkD, half_ok]

theorem jres_keys : TextKeys jres := by
  simp [jres, TextKeys, TextKeysL, TextKeysD]

theorem jres_kind : OneKind jres := by
  simp [jres, OneKind, OneKindL, OneKindD, OneKindKeys]

end Ex

example : ∃ t w, Json.jsonFormatter Ex.jres = .ok t ∧ JDocument id t w ∧ SameVal Ex.jres w := by
  obtain ⟨t, ht⟩ := (C133_defined Ex.jres).1 Ex.jres_kind
  obtain ⟨w, h⟩ := C133_equal id Ex.jres t Ex.jres_wf Ex.jres_floats Ex.jres_keys ht
  exact ⟨t, w, ht, h⟩

example : ¬ OneKind (.list [.dict [(.i 1, .none), (.s c!"a", .none)]]) := by
  simp [OneKind, OneKindL, OneKindKeys]

example : Json.jsonFormatter Ex.jres = .ok
    c!"[\n    {\n        \"load\": 0.5,\n        \"sub\": {},\n        \"up\": true,\n        \"vlans\": [\n            10,\n            -2\n        ],\n        \"\\u00e9 \\\"x\\\"\\n\": null\n    }\n]" := by
  decide +kernel

/-! ## C134 -/

/-- C134. The loader `json` gives for a JSON document its value, and `None` for any other text. -/
theorem C134_json (fl : Str → Str) (s : Str) :
    (∀ v, JDocument fl s v → Json.loadJson fl s = v) ∧ ((¬ ∃ v, JDocument fl s v) → Json.loadJson fl s = .none) := by
  constructor
  · intro v h
    unfold Json.loadJson
    rw [(Json.loads_iff fl s v).2 h]; rfl
  · intro h
    unfold Json.loadJson
    cases hl : Json.loads fl s with
    | none => rfl
    | some v => exact absurd ⟨v, (Json.loads_iff fl s v).1 hl⟩ h

/-- C134. Of a name that occurs twice in a dictionary the last value holds. -/
theorem C134_last_value (ms : List (Str × Val)) (n : Str) :
    valueOf (ofMembers ms) n = ((ms.filter (fun m => decide (m.1 = n))).getLast?).map Prod.snd := by
  have key : ∀ (ms : List (Str × Val)) (d : Dict Key Val), Dict.get? (ms.foldl (fun d m => Dict.set d (.s m.1) m.2) d) (.s n) =
      (((ms.filter (fun m => decide (m.1 = n))).getLast?).map Prod.snd).or (Dict.get? d (.s n)) := by
    intro ms
    induction ms with
    | nil => intro d; rfl
    | cons m ms ih =>
      intro d
      rw [List.foldl_cons, ih]
      by_cases hm : m.1 = n
      · rw [List.filter_cons, if_pos (by simpa using hm), ← hm, Dict.get?_set_self]
        cases hl : (ms.filter (fun x => decide (x.1 = m.1))) with
        | nil => rfl
        | cons a l =>
          rw [List.getLast?_cons_cons]
          rw [List.getLast?_eq_some_getLast (by simp)]; rfl
      · rw [List.filter_cons, if_neg (by simpa using hm), Dict.get?_set_ne _ _ (fun e => hm (Key.s.inj e))]
  have := key ms []
  unfold valueOf ofMembers
  rw [this]
  cases ((ms.filter (fun m => decide (m.1 = n))).getLast?).map Prod.snd <;> rfl

example : JDocument id c!" {\"a\": [1, 2.5e3], \"b\": \"\\ud83d\\ude00\", \"a\": null}\n"
    (.dict [(.s c!"a", .none), (.s c!"b", .str c!"😀")]) := by
  rw [← Json.loads_iff]; decide +kernel

example : ¬ ∃ v, JDocument id c!"{'a': 1}" v := by
  rintro ⟨v, h⟩
  rw [← Json.loads_iff] at h
  exact absurd h (by rw [show Json.loads id c!"{'a': 1}" = none by decide +kernel]; simp)

end Props
