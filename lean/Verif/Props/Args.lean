import Verif.Proofs.Args2
import Verif.Props.Template
import Verif.Props.Headers
import Verif.Proofs.Json3
/-!
# C143: the arguments of functions as they are written
-/

namespace Props
open Py Spec TTP

/-! ## Lemmas -/

theorem attrOf_exit (ctx : LoadCtx) (item : Str) (e : Err) (h : attrOf ctx item = .error e) : e = .systemExit := by
  unfold attrOf at h
  split at h
  · cases h; rfl
  · cases h
  · cases h
  · split at h
    · cases h
    · cases h; rfl

theorem attrsOf_exit (ctx : LoadCtx) (l : List Str) (i : Str) (hi : i ∈ l) (e : Err) (h : attrOf ctx i = .error e) :
    attrsOf ctx l = .error .systemExit := by
  induction l with
  | nil => cases hi
  | cons j l ih =>
    rw [attrsOf]
    cases hj : attrOf ctx j with
    | error e' => rw [attrOf_exit ctx j e' hj]; rfl
    | ok a =>
      rcases List.mem_cons.1 hi with rfl | hi
      · rw [hj] at h; cases h
      · rw [ok_bind, ih hi]; rfl

theorem attrOf_none (ctx : LoadCtx) (a : AttrText) (ha : a.OK) (o : Str) (ho : a.args = some o) (hne : o ≠ []) (h : ctx.eval o = none) :
    attrOf ctx a.source = .error .systemExit := by
  obtain ⟨h1, h2, h3⟩ := ha
  unfold attrOf
  rw [source_eq, attrName_source a.name h1 (fun c hc => ⟨(h2 c hc).1, (h2 c hc).2.1⟩) a.args (fun o e => (h3 o e).2) [], ho]
  obtain ⟨c, cs, rfl⟩ := List.exists_cons_of_ne_nil hne
  simp only [h]
  rfl

theorem getAttributes_none (ctx : LoadCtx) (items : List (Str × AttrText × Str))
    (hi : ∀ i ∈ items, (∀ c ∈ i.1, isSpace c = true) ∧ i.2.1.OK ∧ ∀ c ∈ i.2.2, isSpace c = true)
    (i : Str × AttrText × Str) (hm : i ∈ items) (o : Str) (ho : i.2.1.args = some o) (hne : o ≠ []) (h : ctx.eval o = none) :
    getAttributes ctx (pipeSource items) = .error .systemExit := by
  have hsp : ∀ c, isSpace c = true → c ≠ '|' := by intro c h e; subst e; revert h; decide
  unfold getAttributes pipeSource
  rw [splitC_join '|' _ (by intro e; rw [List.map_eq_nil_iff] at e; rw [e] at hm; cases hm) (by
    intro w hw
    obtain ⟨i, hm, rfl⟩ := List.mem_map.1 hw
    obtain ⟨h1, h2, h3⟩ := hi i hm
    intro h
    rcases List.mem_append.1 h with h | h
    · rcases List.mem_append.1 h with h | h
      · exact hsp _ (h1 _ h) rfl
      · exact source_no_pipe _ h2 h
    · exact hsp _ (h3 _ h) rfl)]
  obtain ⟨a1, a2, a3⟩ := hi i hm
  obtain ⟨e1, e2⟩ := source_ends _ a2
  refine attrsOf_exit ctx _ i.2.1.source ?_ _ (attrOf_none ctx _ a2 o ho hne h)
  rw [List.mem_filter]
  refine ⟨List.mem_map.2 ⟨_, List.mem_map.2 ⟨i, hm, rfl⟩, strip_of_ends _ _ _ a1 a3 e1 e2⟩, ?_⟩
  obtain ⟨c, t, e, _⟩ := e1
  simp [e]

/-! ## C143 -/

/-- C143. A text is read as certain arguments whatever Python makes of other texts, exactly if it is written as `Arguments` says: values with
commas between them, then `name=value` with different names. -/
theorem C143_arguments (s : Str) (args : List Val) (kwargs : Dict Str Val) :
    (∀ other, Args.eval other s = some (args, kwargs)) ↔ Arguments s args kwargs := by
  constructor
  · intro h
    have h0 := h (fun _ => none)
    unfold Args.eval at h0
    cases hi : Args.items (s.length + 1) s with
    | none => rw [hi] at h0; cases h0
    | some is =>
      rw [hi] at h0
      exact ⟨is, (Args.items_iff s is).1 hi, (Args.bind_iff is args kwargs).1 h0⟩
  · rintro ⟨is, hi, ho⟩ other
    unfold Args.eval
    rw [(Args.items_iff s is).2 hi]
    exact (Args.bind_iff is args kwargs).2 ho

/-- C143: a text has one meaning. -/
theorem C143_unambiguous (s : Str) (a a' : List Val) (k k' : Dict Str Val) (h : Arguments s a k) (h' : Arguments s a' k') : a = a' ∧ k = k' := by
  have h1 := (C143_arguments s a k).2 h (fun _ => none)
  rw [(C143_arguments s a' k').2 h' (fun _ => none)] at h1
  cases h1
  exact ⟨rfl, rfl⟩

/-- C143: a pipe of functions in a template line or an attribute of a group, with arguments written this way. -/
theorem C143_pipe (ctx : LoadCtx) (other : Str → Option (List Val × Dict Str Val)) (hev : ctx.eval = Args.eval other)
    (items : List (Str × AttrText × Str)) (fs : List FnCall) (hne : items ≠ [])
    (hi : ∀ i ∈ items, (∀ c ∈ i.1, isSpace c = true) ∧ i.2.1.OK ∧ ∀ c ∈ i.2.2, isSpace c = true)
    (hf : All2 (fun i f => f.name = i.2.1.name ∧ Arguments (i.2.1.args.getD []) f.args f.kwargs) items fs) :
    getAttributes ctx (pipeSource items) = .ok fs := by
  refine C84_pipe ctx items fs hne hi ?_
  clear hi hne
  have hnil : ∀ a k, Arguments [] a k → a = [] ∧ k = [] := fun a k h =>
    C143_unambiguous [] a [] k [] h ⟨[], .nil (by intro c hc; cases hc), rfl, .nil⟩
  induction hf with
  | nil => exact .nil
  | @cons i f items fs h _ ih =>
    refine .cons ⟨h.1, ?_⟩ ih
    obtain ⟨_, h⟩ := h
    cases ha : i.2.1.args with
    | none => rw [ha] at h; exact hnil _ _ h
    | some o =>
      rw [ha] at h
      by_cases hz : o = []
      · subst hz; exact Or.inl ⟨rfl, hnil _ _ h⟩
      · refine Or.inr ⟨hz, ?_⟩
        rw [hev]
        exact (C143_arguments o f.args f.kwargs).2 h other

/-- C143: values after a `name=value`, or a name twice: the template is not loaded. -/
theorem C143_not_loaded (ctx : LoadCtx) (other : Str → Option (List Val × Dict Str Val)) (hev : ctx.eval = Args.eval other)
    (items : List (Str × AttrText × Str))
    (hi : ∀ i ∈ items, (∀ c ∈ i.1, isSpace c = true) ∧ i.2.1.OK ∧ ∀ c ∈ i.2.2, isSpace c = true)
    (i : Str × AttrText × Str) (hm : i ∈ items) (o : Str) (ho : i.2.1.args = some o) (is : List (Option Str × Val)) (his : AItems o is)
    (hbad : ∀ a k, ¬ Ordered is a k) : getAttributes ctx (pipeSource items) = .error .systemExit := by
  have hne : o ≠ [] := by
    rintro rfl
    have : is = [] := by
      have h1 := (Args.items_iff [] is).2 his
      have h2 := (Args.items_iff [] []).2 (.nil (by intro c hc; cases hc))
      rw [h1] at h2
      exact Option.some.inj h2
    subst this
    exact hbad [] [] ⟨rfl, .nil⟩
  refine getAttributes_none ctx items hi i hm o ho hne ?_
  rw [hev]
  unfold Args.eval
  rw [(Args.items_iff o is).2 his]
  exact Args.bind_none hbad

/-- C143: when the arguments with names come first, or names are there twice, the order is wrong. -/
theorem C143_wrong_order (is js : List (Option Str × Val)) (n : Str) (v w : Val) : (∀ a k, ¬ Ordered (is ++ (some n, v) :: (js ++ [(none, w)])) a k) ∧
    ∀ ks, ∀ a k, ¬ Ordered (is ++ (some n, v) :: (js ++ (some n, w) :: ks)) a k := by
  constructor
  · rintro a k ⟨h, _⟩
    have hlast : ∃ k' p, k = k' ++ [p] ∨ k = [] := by
      rcases List.eq_nil_or_concat k with rfl | ⟨k', p, rfl⟩
      · exact ⟨[], ([], .none), Or.inr rfl⟩
      · exact ⟨k', p, Or.inl (by simp)⟩
    obtain ⟨k', p, rfl | rfl⟩ := hlast
    · have := congrArg List.getLast? h
      rw [List.map_append, ← List.append_assoc] at this
      simp only [List.map_cons, List.map_nil, List.getLast?_append, List.getLast?_singleton, List.getLast?_cons] at this
      simp at this
    · have : (some n, v) ∈ a.map (fun v => ((none, v) : Option Str × Val)) := by
        have h2 : (some n, v) ∈ is ++ (some n, v) :: (js ++ [(none, w)]) := by simp
        rw [h] at h2
        simpa using h2
      simp at this
  · rintro ks a k ⟨h, hn⟩
    have h2 := congrArg (fun l => l.filterMap (fun i : Option Str × Val => i.1)) h
    simp only [List.filterMap_append, List.filterMap_cons, List.filterMap_map] at h2
    have e1 : ∀ a : List Val, a.filterMap ((fun i : Option Str × Val => i.1) ∘ fun v => (none, v)) = [] := by
      intro a; induction a with
      | nil => rfl
      | cons x a ih => rw [List.filterMap_cons]; exact ih
    have e2 : ∀ k : Dict Str Val, k.filterMap ((fun i : Option Str × Val => i.1) ∘ fun p => (some p.1, p.2)) = k.map Prod.fst := by
      intro k; induction k with
      | nil => rfl
      | cons x a ih => rw [List.filterMap_cons]; exact congrArg _ ih
    rw [e1, e2, List.nil_append] at h2
    rw [← h2] at hn
    simp [List.nodup_append] at hn

/-- C143: a name without quotes is the same argument as its text in quotes, if it is not taken and not one of `true`, `false`, `none`. -/
theorem C143_quotes_optional (n : Str) (h : Bare n) (ht : lower n ∉ [c!"false", c!"true", c!"none"]) :
    Arguments n [.str n] [] ∧ Arguments ('"' :: (n ++ ['"'])) [.str n] [] ∧ Arguments ('\'' :: (n ++ ['\''])) [.str n] [] := by
  have one : ∀ {t : Str} {v : Val}, AValue t v → Arguments t [v] [] := by
    intro t v h
    refine ⟨[(none, v)], ?_, rfl, .nil⟩
    have := AItems.last (a := []) (b := []) (by intro c hc; cases hc) (.value h) (by intro c hc; cases hc)
    simpa using this
  have tx : ∀ q, (q = '"' ∨ q = '\'') → AText q n n := by
    intro q hq
    have hn := h.1.2
    clear h ht one
    induction n with
    | nil => exact .nil
    | cons c n ih =>
      refine .plain c ?_ ?_ ?_ (ih (fun d hd => hn d (by simp [hd])))
      all_goals
        have := hn c (by simp)
        clear ih hn
      · rintro rfl; rcases hq with rfl | rfl <;> revert this <;> unfold JDigit <;> decide
      · rintro rfl; revert this; unfold JDigit; decide
      · refine ⟨?_, ?_, ?_⟩
        · rintro rfl; revert this; unfold JDigit; decide
        · rintro rfl; revert this; unfold JDigit; decide
        · intro hz
          have : c = Char.ofNat 0 := by
            rw [← hz]; exact (Char.ofNat_toNat c).symm
          subst this
          revert this; unfold JDigit; decide
  refine ⟨one (.name h (.text ht)), one (.text (.one (Or.inl rfl) (tx _ (Or.inl rfl)))), one (.text (.one (Or.inr rfl) (tx _ (Or.inr rfl))))⟩

/-- C143: `true`, `false` and `none` without quotes, in whatever case, are no texts. -/
theorem C143_constants (n : Str) (h : Bare n) :
    (lower n = c!"true" → Arguments n [.bool true] []) ∧ (lower n = c!"false" → Arguments n [.bool false] []) ∧
      (lower n = c!"none" → Arguments n [.none] []) := by
  have one : ∀ {t : Str} {v : Val}, AValue t v → Arguments t [v] [] := by
    intro t v h
    refine ⟨[(none, v)], ?_, rfl, .nil⟩
    have := AItems.last (a := []) (b := []) (by intro c hc; cases hc) (.value h) (by intro c hc; cases hc)
    simpa using this
  exact ⟨fun e => one (.name h (.true e)), fun e => one (.name h (.false e)), fun e => one (.name h (.none e))⟩

/-- C143 for C99: headings that are names, not taken and none of `true`, `false`, `none`, are what C99 asks for. -/
theorem C143_headings (ctx : LoadCtx) (other : Str → Option (List Val × Dict Str Val)) (hev : ctx.eval = Args.eval other) (l : HeadLine)
    (hn : ∀ n ∈ l.names, Bare n ∧ lower n ∉ [c!"false", c!"true", c!"none"] ∧ n ∉ Dict.keys ctx.vars)
    (hc : ∀ n, l.columns = some n → (natStr n).length ≤ 4300) (hs : ctx.patterns c!"strip" = none) : TableCtx ctx l := by
  refine ⟨?_, ?_, hs⟩
  · intro n h
    obtain ⟨h1, h2, h3⟩ := hn n h
    refine ⟨?_, h3⟩
    rw [hev]
    exact (C143_arguments n _ _).2 (C143_quotes_optional n h1 h2).1 other
  · intro n h
    rw [hev]
    refine (C143_arguments (natStr n) [.int n] []).2 ⟨[(none, .int n)], ?_, rfl, .nil⟩ other
    have hd : AValue (natStr n) (.int (decimal (natStr n))) := .int ⟨Json.natStr_intDigits n, hc n h⟩
    rw [← Json.natOfDigits_decimal, natStr_val] at hd
    have := AItems.last (a := []) (b := []) (by intro c hc; cases hc) (.value hd) (by intro c hc; cases hc)
    simpa using this

/-! ## Where a reader may be surprised -/

/-- C143: a back slash before a letter that is an escape of Python is not kept: `"\bvlan"` begins with a backspace, and not with the end of a word
of a regular expression; `"\dvlan"` keeps the back slash. -/
theorem C143_backslash : Arguments c!"\"\\bvlan\"" [.str (Char.ofNat 8 :: c!"vlan")] [] ∧ Arguments c!"\"\\dvlan\"" [.str c!"\\dvlan"] [] := by
  constructor
  all_goals
    rw [← C143_arguments]
    intro other
    unfold Args.eval
  · rw [show Args.items _ _ = some [(none, .str (Char.ofNat 8 :: c!"vlan"))] from by decide +kernel]
    rfl
  · rw [show Args.items _ _ = some [(none, .str c!"\\dvlan")] from by decide +kernel]
    rfl

/-- C143: `log`, `re`, `sys`, … without quotes are no texts: they are what the code itself has under these names. -/
theorem C143_taken (n : Str) (h : n ∈ takenWords) (a : List Val) (k : Dict Str Val) : ¬ Arguments n a k := by
  rintro ⟨is, hi, _⟩
  have := (Args.items_iff n is).2 hi
  simp only [takenWords, List.mem_cons, List.not_mem_nil, or_false] at h
  have key : ∀ n ∈ takenWords, Args.items (n.length + 1) n = none := by decide +kernel
  rw [key n (by simp only [takenWords, List.mem_cons, List.not_mem_nil, or_false]; exact h)] at this
  cases this

/-! ## Examples -/

namespace Ex

/-- Python knows nothing else -/
def actx : LoadCtx := { ctx0 with eval := Args.eval (fun _ => none) }

end Ex

example : Arguments c!" 'a\\tb' \"c\", -  5, [x, TRUE,], path=none , re = 'x'," [.str c!"a\tbc", .int (-5), .list [.str c!"x", .bool true]]
    [(c!"path", .none), (c!"re", .str c!"x")] := by
  rw [← C143_arguments]
  intro other
  unfold Args.eval
  rw [show Args.items _ _ = some [(none, .str c!"a\tbc"), (none, .int (-5)), (none, .list [.str c!"x", .bool true]), (some c!"path", .none),
    (some c!"re", .str c!"x")] from by decide +kernel]
  rfl

example : getAttributes Ex.actx c!" port | contains(vlan, \"10\") | lookup('a.b', add_field=x)" =
    .ok [⟨c!"port", [], []⟩, ⟨c!"contains", [.str c!"vlan", .str c!"10"], []⟩, ⟨c!"lookup", [.str c!"a.b"], [(c!"add_field", .str c!"x")]⟩] := by
  decide +kernel

example : getAttributes Ex.actx c!"port | f(a=1, 2)" = .error .systemExit := by decide +kernel

/-- the hypotheses of `C143_not_loaded` are met -/
example : getAttributes Ex.actx (pipeSource [(c!" ", ⟨c!"port", none⟩, c!" "), (c!" ", ⟨c!"f", some c!"a=x, a=y"⟩, [])]) = .error .systemExit := by
  refine C143_not_loaded Ex.actx (fun _ => none) rfl _ ?_ (c!" ", ⟨c!"f", some c!"a=x, a=y"⟩, []) (by simp) _ rfl
    [(some c!"a", .str c!"x"), (some c!"a", .str c!"y")] ((Args.items_iff _ _).1 (by decide +kernel))
    ((C143_wrong_order [] [] c!"a" (.str c!"x") (.str c!"y")).2 [])
  intro i hi
  simp only [List.mem_cons, List.not_mem_nil, or_false] at hi
  rcases hi with rfl | rfl
  · exact ⟨by decide, ⟨by decide, by decide, by intro o e; cases e⟩, by decide⟩
  · exact ⟨by decide, ⟨by decide, by decide, by intro o e; cases e; decide⟩, by decide⟩

example : Bare c!"GigabitEthernet" := by
  refine ⟨⟨⟨'G', c!"igabitEthernet", rfl, by unfold JDigit; decide⟩, by unfold JDigit; decide⟩, by decide, by decide, by decide⟩

end Props
