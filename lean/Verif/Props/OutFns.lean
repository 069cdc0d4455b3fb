import Verif.Props.Outputs
import Verif.Props.Equal
import Verif.Props.Format
/-!
# C136: output functions of a tag

`callOut W t f data` is what the function `f` of the output tag `t` makes of the results `data`.
-/

namespace Props
open Py Spec TTP TTP.OutFn

/-- C136. An output macro is called with the results; what it returns are the new results, `None` keeps them; an exception is raised; a macro that
does not exist keeps the results. -/
theorem C136_macro (W : OutWorld) (t : OutTag) (n : Str) (data : Val) :
    (∀ f, Dict.get? W.macros n = some f →
      (∀ v, f data = .ok v → v ≠ .none → callOut W t ⟨c!"macro", [.str n], []⟩ data = .ok v) ∧
      (f data = .ok .none → callOut W t ⟨c!"macro", [.str n], []⟩ data = .ok data) ∧
      (∀ x, f data = .error x → callOut W t ⟨c!"macro", [.str n], []⟩ data = .error x)) ∧
    (Dict.get? W.macros n = none → callOut W t ⟨c!"macro", [.str n], []⟩ data = .ok data) := by
  have e : callOut W t ⟨c!"macro", [.str n], []⟩ data = Format.outMacro W.macros data n := rfl
  rw [e]
  unfold Format.outMacro
  constructor
  · intro f hf
    rw [hf]
    dsimp only
    refine ⟨fun v h hne => ?_, fun h => by rw [h]; rfl, fun x h => by rw [h]; rfl⟩
    rw [h, ok_bind]
    cases v with
    | none => exact absurd rfl hne
    | _ => rfl
  · intro h; rw [h]; rfl

/-- C136. `is_equal` gives a report with the name of the output, its description and whether the results equal what the tag contains (see C114 for
equality and for results of groups without name). -/
theorem C136_is_equal (W : OutWorld) (t : OutTag) (data : Val) (ht : DeepWF t.tagLoad) (hd : DeepWF data)
    (hs : (∃ xs, data = .list xs ∧ Val.str c!"_anonymous_" ∉ xs) ∨ ∃ d, data = .dict d ∧ valueOf d c!"_anonymous_" = none) (r : Val) :
    callOut W t ⟨c!"is_equal", [], []⟩ data = .ok r ↔
      ∃ b, r = .dict [(.s c!"output_name", (t.out.name.map Val.str).getD .none),
        (.s c!"output_description", (Dict.get? t.attrs c!"description").getD (.str c!"None")), (.s c!"is_equal", .bool b)] ∧
        (b = true ↔ SameVal data t.tagLoad) := by
  have e : callOut W t ⟨c!"is_equal", [], []⟩ data = isEqualFn t data := rfl
  rw [e]
  unfold isEqualFn
  have key := fun b => (C114_is_equal t.tagLoad data ht hd (by rintro s rfl; rcases hs with ⟨_, h, _⟩ | ⟨_, h, _⟩ <;> cases h)
    (by rintro xs rfl; rcases hs with ⟨_, h, h2⟩ | ⟨_, h, _⟩; cases h; exact h2; cases h) b).2
    (by rcases hs with ⟨xs, h, _⟩ | ⟨d, h, h2⟩; exact .inl ⟨xs, h⟩; exact .inr ⟨d, h, h2⟩)
  constructor
  · intro h
    obtain ⟨b, h1, h2⟩ := (bind_ok_iff _ _ _).1 h
    cases h2
    exact ⟨b, rfl, (key b).1 h1⟩
  · rintro ⟨b, rfl, hb⟩
    rw [(key b).2 hb]; rfl

/-- C136. `traverse` with a path as text with dots or as list; strict if nothing else is said. -/
theorem C136_traverse (W : OutWorld) (t : OutTag) (data w : Val) (path : List Str) (arg : Val)
    (ha : arg = .list (path.map .str) ∨ ∃ s, arg = .str s ∧ path = (splitC '.' s).map strip) :
    (callOut W t ⟨c!"traverse", [arg], []⟩ data = .ok w ↔ Leads path data w) ∧
    callOut W t ⟨c!"traverse", [arg], [(c!"strict", .bool true)]⟩ data = callOut W t ⟨c!"traverse", [arg], []⟩ data := by
  have ap : ∀ l : List Str, MatchFn.allStrs (l.map .str) = .ok l := by
    intro l
    induction l with
    | nil => rfl
    | cons a l ih => rw [List.map_cons, MatchFn.allStrs, ih]; rfl
  have hp : pathArg arg = .ok path := by
    rcases ha with rfl | ⟨s, rfl, rfl⟩
    · exact ap path
    · show Except.ok (Format.pathOf s) = _
      rw [Format.pathOf, split_char]
  have e : callOut W t ⟨c!"traverse", [arg], []⟩ data = (do Format.traverse true (← pathArg arg) data) := rfl
  constructor
  · rw [e, hp, ok_bind]
    exact C77_traverse_strict path data w
  · rfl

/-- C136. `dict_to_list` of a dictionary of dictionaries, also at a path. -/
theorem C136_dict_to_list (W : OutWorld) (t : OutTag) (key : Str) (es : List (Key × Dict Key Val)) (data : Val) (path : List Str)
    (hp : follow path data = some (.dict (es.map (fun e => (e.1, .dict e.2))))) (hd : ∃ d, data = .dict d) (f : FnCall)
    (hf : (path = [] ∧ f = ⟨c!"dict_to_list", [.str key], []⟩) ∨ (path ≠ [] ∧ f = ⟨c!"dict_to_list", [.str key, .list (path.map .str)], []⟩)) :
    callOut W t f data = .ok (.list (es.map (fun e => .dict (Dict.set e.2 (.s key) (keyVal e.1))))) := by
  have ap : ∀ l : List Str, MatchFn.allStrs (l.map .str) = .ok l := by
    intro l
    induction l with
    | nil => rfl
    | cons a l ih => rw [List.map_cons, MatchFn.allStrs, ih]; rfl
  rcases hf with ⟨rfl, rfl⟩ | ⟨hne, rfl⟩
  · have hp' : data = .dict (es.map (fun e => (e.1, .dict e.2))) := by rw [follow] at hp; exact Option.some.inj hp
    have e : callOut W t ⟨c!"dict_to_list", [.str key], []⟩ data = .ok (Format.dictToList key data).2 := rfl
    rw [e, hp', C55_dict_to_list]
  · obtain ⟨d, rfl⟩ := hd
    have e : callOut W t ⟨c!"dict_to_list", [.str key, .list (path.map .str)], []⟩ (.dict d) =
        (if (Val.list (path.map .str)).truthy then (do
          let x ← Format.traverse false (← MatchFn.allStrs (path.map .str)) (.dict d)
          pure (Format.dictToList key x).2) else pure (Format.dictToList key (.dict d)).2) := rfl
    have ht : (Val.list (path.map .str)).truthy = true := by
      cases path with
      | nil => exact absurd rfl hne
      | cons a l => rfl
    rw [e, if_pos ht, ap, ok_bind, (C77_traverse false path).1 d _ hp, ok_bind, C55_dict_to_list]
    rfl

example : callOut Ex.ow (Ex.outT [] []) ⟨c!"macro", [.str c!"nope"], []⟩ (.int 5) = .ok (.int 5) :=
  (C136_macro Ex.ow _ c!"nope" (.int 5)).2 (by decide)

/-- a macro that returns nothing, one that returns new results -/
example : callOut { Ex.ow with macros := [(c!"quiet", fun _ => .ok .none), (c!"count", fun _ => .ok (.int 7))] } (Ex.outT [] []) ⟨c!"macro", [.str c!"quiet"], []⟩ (.int 5) = .ok (.int 5) :=
  ((C136_macro _ _ c!"quiet" (.int 5)).1 _ rfl).2.1 rfl
example : callOut { Ex.ow with macros := [(c!"quiet", fun _ => .ok .none), (c!"count", fun _ => .ok (.int 7))] } (Ex.outT [] []) ⟨c!"macro", [.str c!"count"], []⟩ (.int 5) = .ok (.int 7) :=
  ((C136_macro _ _ c!"count" (.int 5)).1 _ rfl).1 _ rfl (by intro h; cases h)

example : callOut Ex.ow { Ex.outT [] [] with tagLoad := .list [.int 1] } ⟨c!"is_equal", [], []⟩ (.list [.int 1]) =
    .ok (.dict [(.s c!"output_name", .str c!"out"), (.s c!"output_description", .str c!"None"), (.s c!"is_equal", .bool true)]) :=
  (C136_is_equal Ex.ow _ (.list [.int 1]) (by simp [DeepWF, DeepWFL]) (by simp [DeepWF, DeepWFL]) (.inl ⟨_, rfl, by decide⟩) _).2
    ⟨true, rfl, by simp only [true_iff]; exact C114_refl _ (by simp [DeepWF, DeepWFL])⟩

example : callOut Ex.ow (Ex.outT [] []) ⟨c!"dict_to_list", [.str c!"name", .list [.str c!"ints"]], []⟩
    (.dict [(.s c!"ints", .dict [(.s c!"Lo0", .dict [(.s c!"ip", .str c!"1")])])]) = .ok (.list [.dict [(.s c!"ip", .str c!"1"), (.s c!"name", .str c!"Lo0")]]) :=
  C136_dict_to_list Ex.ow _ c!"name" [(.s c!"Lo0", [(.s c!"ip", .str c!"1")])] _ [c!"ints"] rfl ⟨_, rfl⟩ _ (.inr ⟨by decide, rfl⟩)

end Props
