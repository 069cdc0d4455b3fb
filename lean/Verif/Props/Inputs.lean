import Verif.Proofs.Commands
/-!
# Variable functions, input functions

`callVar W` and `callIn W` are the built-in variable and input functions, `W` gives the clock, the compiler of regular expressions and
the user's macros.
-/

namespace Props
open Py Spec TTP TTP.InputFn

/-! ## C110: hostname -/

theorem unmarked_iff (h v : Str) : Unmarked h v ↔ stripBom h = v := by
  have one : ∀ (cs : List Char) (a b : Str), lstripOf cs a = b ↔ ∃ m, a = m ++ b ∧ (∀ c ∈ m, c ∈ cs) ∧ ∀ c ∈ b.head?, c ∉ cs := by
    intro cs a
    induction a with
    | nil =>
      intro b
      constructor
      · rintro rfl; exact ⟨[], rfl, by simp, by simp [lstripOf]⟩
      · rintro ⟨m, e, _, _⟩
        rw [(List.append_eq_nil_iff.1 e.symm).2]; rfl
    | cons x a ih =>
      intro b
      rw [lstripOf, List.dropWhile_cons]
      by_cases hx : x ∈ cs
      · rw [if_pos (by simpa using hx)]
        rw [show a.dropWhile cs.contains = lstripOf cs a from rfl, ih]
        constructor
        · rintro ⟨m, e, h1, h2⟩
          refine ⟨x :: m, by simp [e], ?_, h2⟩
          intro c hc
          rcases List.mem_cons.1 hc with rfl | hc
          · exact hx
          · exact h1 c hc
        · rintro ⟨m, e, h1, h2⟩
          cases m with
          | nil =>
            simp only [List.nil_append] at e
            rw [← e] at h2
            exact absurd hx (h2 x (by simp))
          | cons z m =>
            simp only [List.cons_append, List.cons.injEq] at e
            exact ⟨m, e.2, fun c hc => h1 c (by simp [hc]), h2⟩
      · rw [if_neg (by simpa using hx)]
        constructor
        · rintro rfl; exact ⟨[], rfl, by simp, by simpa using hx⟩
        · rintro ⟨m, e, h1, h2⟩
          cases m with
          | nil => simpa using e
          | cons z m =>
            simp only [List.cons_append, List.cons.injEq] at e
            exact absurd (h1 z (by simp)) (by rw [← e.1]; exact hx)
  have idem : ∀ (cs : List Char) (a : Str), (∀ c ∈ a.head?, c ∉ cs) → lstripOf cs a = a := fun cs a ha => (one cs a a).2 ⟨[], rfl, by simp, ha⟩
  constructor
  · rintro ⟨m1, m2, m3, e, h1, n1, h2, n2, h3, n3⟩
    simp only [stripBom, List.foldl_cons, List.foldl_nil]
    rw [(one _ h (m2 ++ (m3 ++ v))).2 ⟨m1, e, h1, n1⟩, (one _ (m2 ++ (m3 ++ v)) (m3 ++ v)).2 ⟨m2, rfl, h2, n2⟩,
      idem ['ÿ', 'þ'] (m3 ++ v) (by
        intro c hc
        have := n2 c hc
        simp only [List.mem_cons, List.not_mem_nil, or_false, not_or] at this ⊢
        exact ⟨this.2, this.1⟩)]
    exact (one _ _ _).2 ⟨m3, rfl, by simpa using h3, by simpa using n3⟩
  · intro e
    simp only [stripBom, List.foldl_cons, List.foldl_nil] at e
    obtain ⟨m1, e1, h1, n1⟩ := (one ['ï', '»', '¿'] h _).1 rfl
    obtain ⟨m2, e2, h2, n2⟩ := (one ['þ', 'ÿ'] (lstripOf ['ï', '»', '¿'] h) _).1 rfl
    rw [idem ['ÿ', 'þ'] _ (by
        intro c hc
        have := n2 c hc
        simp only [List.mem_cons, List.not_mem_nil, or_false, not_or] at this ⊢
        exact ⟨this.2, this.1⟩)] at e
    obtain ⟨m3, e3, h3, n3⟩ := (one ['\ufeff'] _ v).1 e
    refine ⟨m1, m2, m3, ?_, h1, ?_, h2, ?_, by simpa using h3, by simpa using n3⟩
    · rw [← e3, ← e2]; exact e1
    · rw [← e3, ← e2]; exact n1
    · rw [← e3]; exact n2

theorem dataText_lines (lines : List Str) (hne : lines ≠ []) : dataText (join c!"\n" lines) = nlText (lines ++ [[]]) := by
  have h := nlText_join lines hne
  have h2 : ∀ l : List Str, nlText (l ++ [[]]) = nlText l ++ ['\n'] := by
    intro l
    induction l with
    | nil => rfl
    | cons t l ih => simp [nlText, ih]
  rw [h2, ← h]
  have : dataText (join c!"\n" lines) = ('\n' :: (join c!"\n" lines ++ ['\n'])) ++ ['\n'] := by simp [dataText]
  rw [this, List.dropLast_concat]

theorem no_empty_prompt (k : Prompt) (h : Str) : ¬ PromptOf k [] h := by
  rintro ⟨p, hr, _⟩
  cases k <;> simp [Reading] at hr

theorem hostOf_empty (lines : List Str) (h : Str) : HostOf (lines ++ [[]]) h ↔ HostOf lines h := by
  have hfp : ∀ k, FirstPrompt k (lines ++ [[]]) h ↔ FirstPrompt k lines h := by
    intro k
    constructor
    · rintro ⟨l1, t, l2, e, hp, hall⟩
      rcases List.eq_nil_or_concat l2 with rfl | ⟨l3, z, rfl⟩
      · have := List.append_inj' e rfl
        simp only [List.cons.injEq, and_true] at this
        rw [← this.2] at hp
        exact absurd hp (no_empty_prompt k h)
      · rw [List.concat_eq_append, ← List.cons_append, ← List.append_assoc] at e
        have := List.append_inj' e rfl
        exact ⟨l1, t, l3, this.1, hp, hall⟩
    · rintro ⟨l1, t, l2, e, hp, hall⟩
      exact ⟨l1, t, l2 ++ [[]], by rw [e]; simp, hp, hall⟩
  constructor
  · rintro ⟨k1, k, k2, e, hp, hall⟩
    exact ⟨k1, k, k2, e, (hfp k).1 hp, fun k' hk t ht => hall k' hk t (by simp [ht])⟩
  · rintro ⟨k1, k, k2, e, hp, hall⟩
    refine ⟨k1, k, k2, e, (hfp k).2 hp, ?_⟩
    intro k' hk t ht h'
    rcases List.mem_append.1 ht with ht | ht
    · exact hall k' hk t ht h'
    · rw [List.mem_singleton.1 ht]; exact no_empty_prompt k' h'

/-- C110. For every text: the variable function `gethostname` gives the name of the first prompt of the first kind (in the
order Nokia SR OS, IOS-XR, privileged IOS, Juniper, Huawei, IOS, Fortigate) of which there is any in the text, without byte order
marks. -/
theorem C110_hostname (W : InWorld) (lines : List Str) (hne : lines ≠ []) (hl : ∀ t ∈ lines, '\n' ∉ t) (name : Str) (v : Str) :
    callVar W c!"gethostname" (.str (dataText (join c!"\n" lines))) name = .ok (.str v) ↔ ∃ h, HostOf lines h ∧ Unmarked h v := by
  have hl' : ∀ t ∈ lines ++ [[]], '\n' ∉ t := by
    intro t ht
    rcases List.mem_append.1 ht with ht | ht
    · exact hl t ht
    · rw [List.mem_singleton.1 ht]; simp
  have h1 := findHost_iff Prompt.all (lines ++ [[]]) hl' v
  have h2 : Prompt.all.map reOf = hostREs := rfl
  rw [h2] at h1
  have h3 : callVar W c!"gethostname" (.str (dataText (join c!"\n" lines))) name = .ok (.str v) ↔
      findHost hostREs (nlText (lines ++ [[]])) = some v := by
    rw [dataText_lines lines hne]
    simp only [callVar, if_true, gethostname, pure_ok, Except.ok.injEq]
    cases findHost hostREs (nlText (lines ++ [[]])) <;> simp
  rw [h3, h1]
  constructor
  · rintro ⟨k1, k, k2, h, e, hp, hall, rfl⟩
    exact ⟨h, (hostOf_empty lines h).1 ⟨k1, k, k2, e, hp, hall⟩, (unmarked_iff _ _).2 rfl⟩
  · rintro ⟨h, ho, hu⟩
    obtain ⟨k1, k, k2, e, hp, hall⟩ := (hostOf_empty lines h).2 ho
    exact ⟨k1, k, k2, h, e, hp, hall, ((unmarked_iff _ _).1 hu).symm⟩

/-- C110. A text without any prompt: the function answers `False`, that is, the variable keeps its value (C111). -/
theorem C110_no_prompt (W : InWorld) (lines : List Str) (hne : lines ≠ []) (hl : ∀ t ∈ lines, '\n' ∉ t) (name : Str) :
    callVar W c!"gethostname" (.str (dataText (join c!"\n" lines))) name = .ok (.bool false) ↔
      ∀ k, ∀ t ∈ lines, ∀ h, ¬ PromptOf k t h := by
  have hres : callVar W c!"gethostname" (.str (dataText (join c!"\n" lines))) name = .ok (.bool false) ↔
      ∀ v, callVar W c!"gethostname" (.str (dataText (join c!"\n" lines))) name ≠ .ok (.str v) := by
    simp only [callVar, if_true, gethostname, pure_ok]
    cases findHost hostREs (dataText (join c!"\n" lines)) <;> simp
  rw [hres]
  constructor
  · intro h
    -- the first kind with a prompt
    have step : ∀ ks : List Prompt, ∀ k0, Prompt.all = k0 ++ ks → (∀ k ∈ k0, ∀ t ∈ lines, ∀ h, ¬ PromptOf k t h) →
        ∀ k ∈ ks, ∀ t ∈ lines, ∀ h, ¬ PromptOf k t h := by
      intro ks
      induction ks with
      | nil => intro k0 _ _ k hk; cases hk
      | cons k ks ih =>
        intro k0 e h0
        have hk : ∀ t ∈ lines, ∀ h, ¬ PromptOf k t h := by
          have key : ∀ l2 l1, lines = l1 ++ l2 → (∀ t ∈ l1, ∀ h, ¬ PromptOf k t h) → ∀ t ∈ l2, ∀ h, ¬ PromptOf k t h := by
            intro l2
            induction l2 with
            | nil => intro l1 _ _ t ht; cases ht
            | cons t l2 ih2 =>
              intro l1 e2 h2
              have ht : ∀ h, ¬ PromptOf k t h := by
                intro h' hp
                have ho : HostOf lines h' := ⟨k0, k, ks, e, ⟨l1, t, l2, e2, hp, h2⟩, h0⟩
                exact h _ ((C110_hostname W lines hne hl name _).2 ⟨h', ho, (unmarked_iff _ _).2 rfl⟩)
              intro t' ht'
              rcases List.mem_cons.1 ht' with rfl | ht'
              · exact ht
              · refine ih2 (l1 ++ [t]) (by simp [e2]) ?_ t' ht'
                intro u hu
                rcases List.mem_append.1 hu with hu | hu
                · exact h2 u hu
                · rw [List.mem_singleton.1 hu]; exact ht
          exact key lines [] rfl (by simp)
        intro k' hk'
        rcases List.mem_cons.1 hk' with rfl | hk'
        · exact hk
        · refine ih (k0 ++ [k]) (by simp [e]) ?_ k' hk'
          intro u hu
          rcases List.mem_append.1 hu with hu | hu
          · exact h0 u hu
          · rw [List.mem_singleton.1 hu]; exact hk
    intro k
    exact step Prompt.all [] rfl (by simp) k (by cases k <;> simp [Prompt.all])
  · intro h v hv
    obtain ⟨h', ⟨k1, k, k2, _, ⟨l1, t, l2, e, hp, _⟩, _⟩, _⟩ := (C110_hostname W lines hne hl name v).1 hv
    exact h k t (by rw [e]; simp) h' hp

/-- a world for the examples: names and commands are plain text -/
def Ex.iworld : InWorld := ⟨fun _ => .error .runtimeError, fun s => .ok (Re.lits s), [(c!"no", fun _ => .ok (.bool false)), (c!"up", fun _ => .ok (.str c!"\nUP\n\n"))]⟩

example : callVar Ex.iworld c!"gethostname" (.str (dataText c!"text\nr1#show ver\nr2>show\n")) c!"f" = .ok (.str c!"r1") := by decide +kernel
example : callVar Ex.iworld c!"gethostname" (.str (dataText c!"RP/0/0/CPU0:xr1#sh run")) c!"f" = .ok (.str c!"xr1") := by decide +kernel
example : callVar Ex.iworld c!"gethostname" (.str (dataText c!"A:ALA-12>config>system# x")) c!"f" = .ok (.str c!"ALA-12") := by decide +kernel
example : callVar Ex.iworld c!"gethostname" (.str (dataText c!"fw (global) # get")) c!"f" = .ok (.str c!"fw (global)") := by decide +kernel
example : callVar Ex.iworld c!"gethostname" (.str (dataText c!"nothing here")) c!"f" = .ok (.bool false) := by decide +kernel
/-- the hypothesis side of the specification is met by a real prompt -/
example : PromptOf .juniper c!"user@mx1> show" c!"mx1" := by
  refine ⟨c!"user", ⟨by unfold Blankless; decide, by unfold Blankless; decide, by decide, c!" show", by decide⟩, ?_⟩
  intro p' h' hr hb
  obtain ⟨f, _, hf⟩ := finds_juniper
  obtain ⟨_, _, _, r, e⟩ := hr
  have key : ∀ n, n ≤ 14 → p'.length = n → (c!"user@mx1> show").drop n = '@' :: (h' ++ '>' :: r) := by
    intro n _ hn
    rw [e, ← hn, List.drop_left]
  have hp14 : p'.length ≤ 14 := by
    have h14 : (c!"user@mx1> show").length = 14 := by decide
    have hlen := congrArg List.length e
    rw [h14] at hlen
    simp only [List.length_append, List.length_cons] at hlen
    omega
  have hp : p'.length = 4 := by
    have := key p'.length hp14 rfl
    have h0 := congrArg List.head? this
    have hall : ∀ n, n ≤ 14 → ((c!"user@mx1> show").drop n).head? = some '@' → n = 4 := by decide
    exact hall _ hp14 (by rw [h0]; rfl)
  simp only [Better, hp] at hb
  have h4 := key 4 (by omega) hp
  have hd : (c!"user@mx1> show").drop 4 = c!"@mx1> show" := by decide
  rw [hd] at h4
  simp only [List.cons.injEq, true_and] at h4
  rcases hb with hb | ⟨_, hb⟩
  · exact absurd hb (by decide)
  · simp only [reduceCtorEq, if_false] at hb
    have hlen := congrArg List.length h4
    simp only [List.length_append, List.length_cons, List.length_nil] at hlen
    have hall : ∀ n, n ≤ 9 → ((c!"mx1> show").drop n).head? = some '>' → n = 3 := by decide
    have hh : h'.length ≤ 9 := by omega
    have := hall h'.length hh (by rw [h4, List.drop_left]; rfl)
    rw [this] at hb
    exact absurd hb (by decide)

/-- C110, disagreement: the kind of prompt decides, not the place. A comment in the output of a Juniper device is taken for
a privileged IOS prompt. -/
theorem C110_comment_is_prompt : callVar Ex.iworld c!"gethostname" (.str (dataText c!"user@mx1> show configuration\n## Last commit: today")) c!"f" = .ok (.str c!"#") := by
  decide +kernel

/-- C110, disagreement: letters of a byte order mark are taken away in any order and number, also those of a name. -/
theorem C110_marks_are_letters : callVar Ex.iworld c!"gethostname" (.str (dataText c!"þór#show")) c!"f" = .ok (.str c!"ór") := by
  decide +kernel

/-! ## C111: variable functions -/

/-- what a variable is worth after its function has run -/
def worth (r : PyM Val) (old : Option Val) : Option Val :=
  match r with
  | .ok v => if v.truthy = true then some v else old
  | .error _ => old

theorem runVarFns_get (E : Engine) (text : Val) (name : Str) (fs : Dict Str Str) (hw : Dict.WF fs) (vars : Dict Str Val) (k : Str) :
    Dict.get? (runVarFns E text name fs vars) k =
      match Dict.get? fs k with
      | some f => worth (E.varFns f text name) (Dict.get? vars k)
      | none => Dict.get? vars k := by
  induction fs generalizing vars with
  | nil => rfl
  | cons q fs ih =>
    obtain ⟨v, f⟩ := q
    have hw' : Dict.WF fs := (List.nodup_cons.1 hw).2
    have hv : Dict.get? fs v = none := (Dict.get?_eq_none_iff _ _).2 (List.nodup_cons.1 hw).1
    rw [runVarFns, Dict.get?_cons]
    by_cases hk : v = k
    · subst hk
      simp only [if_true]
      cases hr : E.varFns f text name with
      | ok r =>
        dsimp only
        rw [ih hw', hv]
        dsimp only [worth]
        split
        · rw [Dict.get?_set_self]
        · rfl
      | error e =>
        dsimp only
        rw [ih hw', hv]
        rfl
    · simp only [hk, if_false]
      cases hr : E.varFns f text name with
      | ok r =>
        dsimp only
        rw [ih hw']
        have : Dict.get? (if r.truthy = true then Dict.set vars v r else vars) k = Dict.get? vars k := by
          split
          · rw [Dict.get?_set_ne _ _ (by first | exact hk | exact fun e => hk e.symm)]
          · rfl
        rw [this]
      | error e =>
        dsimp only
        rw [ih hw']

/-- C111. Variables with functions, for every template and every data item: parsing the item is the same as parsing it with
plain variables, where every variable with a function has the value the function gives for the text and the name of the item
(before the input functions), if the function does not fail and the value is not empty; other variables are as they were. -/
theorem C111_variable_functions (E : Engine) (t : Tpl) (hw : Dict.WF t.varFns) (inp : TInput) (d : Datum) (main : Val) (g : Dict Str Val)
    (text : Val) (name : Str) (hd : dataOf E.world d = .ok (text, name)) :
    ∃ V : Dict Str Val, parseDatum E t inp d main g = parseDatum E { t with vars := V, varFns := [] } inp d main g ∧
      (∀ k f, Dict.get? t.varFns k = some f → Dict.get? V k = worth (E.varFns f text name) (Dict.get? t.vars k)) ∧
      (∀ k, k ∉ Dict.keys t.varFns → Dict.get? V k = Dict.get? t.vars k) := by
  refine ⟨runVarFns E text name t.varFns t.vars, ?_, ?_, ?_⟩
  · simp only [parseDatum, hd, ok_bind, runVarFns]
    have hgo : ∀ is, groupsOf { t with vars := runVarFns E text name t.varFns t.vars, varFns := [] } is = groupsOf t is := by
      intro is
      induction is with
      | nil => rfl
      | cons i is ih => simp only [groupsOf, ih]
    rw [hgo]
  · intro k f hf
    rw [runVarFns_get E text name t.varFns hw, hf]
  · intro k hk
    rw [runVarFns_get E text name t.varFns hw, (Dict.get?_eq_none_iff _ _).2 hk]

/-- C111. `getfilename` is the name of the data item: the path of a file, `text_data` for a text. -/
theorem C111_getfilename (W : InWorld) (data : Val) (name : Str) : callVar W c!"getfilename" data name = .ok (.str name) := by
  simp only [callVar]
  rfl

/-! ## C112: input functions -/

theorem runInFns_iff (E : Engine) (fs : List FnCall) (v v' : Val) : runInFns E fs v = .ok v' ↔ Piped E.inFns fs v v' := by
  induction fs generalizing v with
  | nil =>
    simp only [runInFns, pure_ok, Except.ok.injEq]
    constructor
    · rintro rfl; exact .done v
    · intro h; cases h; rfl
  | cons f fs ih =>
    rw [runInFns]
    constructor
    · intro h
      obtain ⟨⟨w, flag⟩, hc, h⟩ := (bind_ok_iff _ _ _).1 h
      dsimp only at h
      split at h
      · rename_i hf
        simp only [pure_ok, Except.ok.injEq] at h
        subst h; subst hf
        exact .stop f fs v w hc
      · rename_i hf
        exact .next f fs v w v' flag hc hf ((ih w).1 h)
    · intro h
      cases h with
      | stop _ _ _ _ hc => rw [hc, ok_bind]; simp [pure_ok]
      | next _ _ _ w _ flag hc hf h => rw [hc, ok_bind]; simpa [hf] using (ih w).2 h

/-- C112. Input functions, for every input: an item is parsed as if the data that come out of the functions had been given without
any functions; the functions are called in the order of the tag, each one gets the data of the one before, and a
function that answers `False` is the last one. An error in a function ends the parsing. -/
theorem C112_input_functions (E : Engine) (t : Tpl) (ht : t.varFns = []) (inp : TInput) (d : Datum) (main : Val) (g : Dict Str Val)
    (text : Val) (name : Str) (hd : dataOf E.world d = .ok (text, name)) (r : Val × Dict Str Val) :
    parseDatum E t inp d main g = .ok r ↔
      ∃ out, Piped E.inFns inp.functions text out ∧
        parseDatum E t { inp with functions := [] } { d with kind := .structured, val := out } main g = .ok r := by
  constructor
  · intro h
    simp only [parseDatum, hd, ok_bind] at h
    obtain ⟨out, ho, h⟩ := (bind_ok_iff _ _ _).1 h
    refine ⟨out, (runInFns_iff E _ _ _).1 ho, ?_⟩
    simp only [parseDatum, dataOf, pure_ok, ok_bind, runInFns, ht, runVarFns] at h ⊢
    exact h
  · rintro ⟨out, ho, h⟩
    simp only [parseDatum, hd, ok_bind, (runInFns_iff E _ _ _).2 ho, ht, runVarFns]
    simpa only [parseDatum, dataOf, pure_ok, ok_bind, runInFns, ht, runVarFns] using h

/-- C112. Input macros: `True`, `False` and `None` keep the data (`False` stops the functions), anything else is the new data; a macro that
does not exist does nothing. -/
theorem C112_macro (W : InWorld) (n : Str) (data : Val) :
    (∀ f v, Dict.get? W.macros n = some f → f data = .ok v →
      callIn W ⟨c!"macro", [.str n], []⟩ data = .ok (match v with
        | .bool true => (data, some true)
        | .bool false => (data, some false)
        | .none => (data, none)
        | w => (w, none))) ∧
    (Dict.get? W.macros n = none → callIn W ⟨c!"macro", [.str n], []⟩ data = .ok (data, none)) := by
  constructor
  · intro f v hf hv
    have : callIn W ⟨c!"macro", [.str n], []⟩ data = Format.inMacro W.macros data n := rfl
    rw [this, Format.inMacro, hf]
    dsimp only
    rw [hv, ok_bind]
    cases v with
    | bool b => cases b <;> rfl
    | _ => rfl
  · intro hn
    have : callIn W ⟨c!"macro", [.str n], []⟩ data = Format.inMacro W.macros data n := rfl
    rw [this, Format.inMacro, hn]
    rfl

example : Piped (callIn Ex.iworld) [⟨c!"macro", [.str c!"up"], []⟩, ⟨c!"macro", [.str c!"no"], []⟩, ⟨c!"macro", [.str c!"other"], []⟩] (.str c!"\nx\n\n") (.str c!"\nUP\n\n") :=
  .next _ _ _ (.str c!"\nUP\n\n") _ none (by decide +kernel) (by decide) (.stop _ _ _ _ (by decide +kernel))

/-! ## C113: output of commands -/

/-- the text of the blocks -/
def blocksText (bs : List Str) : Str := bs.flatMap (fun b => c!"\n" ++ b ++ c!"\n")

theorem findCommands_blocks (W : InWorld) (h s : Str) (cmds : List Str) (hc : ∀ c ∈ cmds, W.rx c = .ok (Re.lits c) ∧ Command c) :
    ∃ bs, Blocks h s cmds bs ∧ findCommands W (Re.lits h) s cmds = .ok (blocksText bs) := by
  induction cmds with
  | nil => exact ⟨[], .nil, rfl⟩
  | cons c cs ih =>
    obtain ⟨bs, hb, e⟩ := ih (fun c' h' => hc c' (by simp [h']))
    obtain ⟨hr, hcmd⟩ := hc c (by simp)
    rw [findCommands, hr, ok_bind, e, ok_bind]
    cases hs : Re.search (commandRe (Re.lits h) (Re.lits c)) s with
    | none =>
      refine ⟨bs, .missing c cs bs ?_ hb, rfl⟩
      intro b hb'
      rw [← search_block h c s b hcmd, hs] at hb'
      cases hb'
    | some m =>
      refine ⟨m.text :: bs, .found c cs m.text bs ((search_block h c s m.text hcmd).1 (by rw [hs]; rfl)) hb, ?_⟩
      simp [blocksText, pure_ok]

theorem block_unique (h s c b b' : Str) (hc : Command c) (h1 : CmdBlock h c s b) (h2 : CmdBlock h c s b') : b = b' := by
  rw [← search_block h c s _ hc] at h1 h2
  rw [h1] at h2
  simpa using h2

theorem blocks_unique (h s : Str) (cmds : List Str) (hc : ∀ c ∈ cmds, Command c) (bs bs' : List Str) (h1 : Blocks h s cmds bs) (h2 : Blocks h s cmds bs') :
    bs = bs' := by
  induction h1 generalizing bs' with
  | nil => cases h2; rfl
  | found c cs b bs hb _ ih =>
    cases h2 with
    | found _ _ b2 bs2 hb2 h2 => rw [block_unique h s c b b2 (hc c (by simp)) hb hb2, ih (fun c' h' => hc c' (by simp [h'])) bs2 h2]
    | missing _ _ _ hn _ => exact absurd hb (hn b)
  | missing c cs bs hn _ ih =>
    cases h2 with
    | found _ _ b2 bs2 hb2 h2 => exact absurd hb2 (hn b2)
    | missing _ _ _ _ h2 => exact ih (fun c' h' => hc c' (by simp [h'])) bs' h2

/-- C113. `extract_commands`, for every text with a hostname and all commands without characters that mean something in a regular expression:
what remains is, for each command in the order of the arguments, the prompt with the command and its output up to the next
prompt or the end; if no command is found the text is unchanged. -/
theorem C113_commands (W : InWorld) (lines : List Str) (hne : lines ≠ []) (hl : ∀ t ∈ lines, '\n' ∉ t) (h0 h : Str)
    (hh : HostOf lines h0) (hu : Unmarked h0 h) (hn : h ≠ []) (hrx : W.rx h = .ok (Re.lits h))
    (cmds : List Str) (hc : ∀ c ∈ cmds, W.rx c = .ok (Re.lits c) ∧ Command c) (bs : List Str)
    (hb : Blocks h (dataText (join c!"\n" lines)) cmds bs) :
    callIn W ⟨c!"extract_commands", cmds.map .str, []⟩ (.str (dataText (join c!"\n" lines))) =
      .ok (.str (if bs = [] then dataText (join c!"\n" lines) else bs.flatMap (fun b => c!"\n" ++ b ++ c!"\n")), none) := by
  have hg := (C110_hostname W lines hne hl [] h).2 ⟨h0, hh, hu⟩
  simp only [callVar, if_true] at hg
  have hargs : ∀ cs : List Str, strArgs (cs.map .str) = .ok cs := by
    intro cs
    induction cs with
    | nil => rfl
    | cons c cs ih => simp [strArgs, ih, ok_bind, pure_ok]
  obtain ⟨bs', hb', e⟩ := findCommands_blocks W h (dataText (join c!"\n" lines)) cmds hc
  have := blocks_unique _ _ cmds (fun c h' => (hc c h').2) bs bs' hb hb'
  subst this
  simp only [callIn, if_true, hargs, ok_bind, extractCommands, hg]
  cases h with
  | nil => exact absurd rfl hn
  | cons x h =>
    dsimp only
    by_cases hcm : cmds = []
    · subst hcm
      cases hb
      simp [pure_ok]
    · rw [if_neg hcm, hrx, ok_bind, e, ok_bind]
      have hbe : blocksText bs = [] ↔ bs = [] := by
        cases bs <;> simp [blocksText]
      by_cases hbn : bs = []
      · rw [if_pos (hbe.2 hbn), if_pos hbn]
        rfl
      · have : blocksText bs ≠ [] := fun e => hbn (hbe.1 e)
        rw [if_neg this, if_neg hbn]
        rfl

/-- C113. The blocks of C113 exist and there is one list of them only. -/
theorem C113_blocks_exist (h s : Str) (cmds : List Str) (hc : ∀ c ∈ cmds, Command c) :
    ∃ bs, Blocks h s cmds bs ∧ ∀ bs', Blocks h s cmds bs' → bs' = bs := by
  obtain ⟨bs, hb, _⟩ := findCommands_blocks ⟨fun _ => .error .runtimeError, fun s => .ok (Re.lits s), []⟩ h s cmds (fun c h' => ⟨rfl, hc c h'⟩)
  exact ⟨bs, hb, fun bs' hb' => blocks_unique h s cmds hc bs' bs hb' hb⟩

/-- C113. Without a prompt in the text nothing is extracted. -/
theorem C113_no_prompt (W : InWorld) (lines : List Str) (hne : lines ≠ []) (hl : ∀ t ∈ lines, '\n' ∉ t)
    (hno : ∀ k, ∀ t ∈ lines, ∀ h, ¬ PromptOf k t h) (cmds : List Str) :
    callIn W ⟨c!"extract_commands", cmds.map .str, []⟩ (.str (dataText (join c!"\n" lines))) = .ok (.str (dataText (join c!"\n" lines)), none) := by
  have hg := (C110_no_prompt W lines hne hl []).2 hno
  simp only [callVar, if_true] at hg
  have hargs : ∀ cs : List Str, strArgs (cs.map .str) = .ok cs := by
    intro cs
    induction cs with
    | nil => rfl
    | cons c cs ih => simp [strArgs, ih, ok_bind, pure_ok]
  simp only [callIn, if_true, hargs, ok_bind, extractCommands, hg]
  rfl

/-- two commands of a session -/
def Ex.session : Str := c!"r1#show a\na1\na2\nr1#show b\nb1\nr1#show c\nc1"

example : callIn Ex.iworld ⟨c!"extract_commands", [.str c!"show b", .str c!"show x", .str c!"show a"], []⟩ (.str (dataText Ex.session)) =
    .ok (.str c!"\nr1#show b\nb1\n\n\nr1#show a\na1\na2\n\n", none) := by decide +kernel

/-- C113, disagreement: the hostname is put into the expression as it is. With the name `r.1` (where `.` stands for any character) a line of
the output that begins like `rx1#` ends the output of the command. -/
theorem C113_hostname_not_escaped :
    callIn ⟨fun _ => .error .runtimeError, fun s => .ok (Re.seqs (s.map (fun c => .cls (if c = '.' then .dot else .lit c)))), []⟩
      ⟨c!"extract_commands", [.str c!"show"], []⟩ (.str (dataText c!"r.1#show\nup\nrx1#peer\ndown")) =
    .ok (.str c!"\nr.1#show\nup\n\n", none) := by decide +kernel

end Props
