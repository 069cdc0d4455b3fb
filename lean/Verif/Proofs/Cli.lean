import Verif.Props.Plain
import Verif.Props.Files
import Verif.Props.Json
import Verif.Model.Cli
import Verif.Spec.Cli
/-!
# Lemmas for the command line
-/

set_option synthInstance.maxSize 4000

namespace TTP
open Py Spec Props

/-! ## JSON gives dictionaries with distinct keys -/

theorem deepWFL_mem {xs : List Val} : DeepWFL xs ↔ ∀ x ∈ xs, DeepWF x := by
  induction xs with
  | nil => simp [DeepWFL]
  | cons x xs ih => simp [DeepWFL, ih]

theorem deepWFD_mem {kvs : List (Key × Val)} : DeepWFD kvs ↔ ∀ kv ∈ kvs, DeepWF kv.2 := by
  induction kvs with
  | nil => simp [DeepWFD]
  | cons kv kvs ih => obtain ⟨k, v⟩ := kv; simp [DeepWFD, ih]

theorem ofMembers_wf (ms : List (Str × Val)) (h : ∀ m ∈ ms, DeepWF m.2) : DeepWF (.dict (ofMembers ms)) := by
  have key : ∀ (ms : List (Str × Val)) (d : Dict Key Val), (∀ m ∈ ms, DeepWF m.2) → Dict.WF d → (∀ kv ∈ d, DeepWF kv.2) →
      Dict.WF (ms.foldl (fun d m => Dict.set d (.s m.1) m.2) d) ∧ ∀ kv ∈ ms.foldl (fun d m => Dict.set d (.s m.1) m.2) d, DeepWF kv.2 := by
    intro ms
    induction ms with
    | nil => intro d _ h1 h2; exact ⟨h1, h2⟩
    | cons m ms ih =>
      intro d hm h1 h2
      refine ih _ (fun m' h' => hm m' (by simp [h'])) (Dict.WF_set _ _ _ h1) ?_
      intro kv hkv
      have hg : Dict.get? (Dict.set d (.s m.1) m.2) kv.1 = some kv.2 := Dict.get?_of_mem _ _ _ (Dict.WF_set _ _ _ h1) hkv
      rw [Dict.get?_set] at hg
      split at hg
      · rw [← Option.some.inj hg]; exact hm m (by simp)
      · exact h2 (kv.1, kv.2) (Dict.mem_of_get? _ _ _ hg)
  obtain ⟨a, b⟩ := key ms [] h (by simp [Dict.WF, Dict.keys]) (by simp)
  rw [DeepWF]
  exact ⟨a, deepWFD_mem.2 b⟩

theorem jtext_wf {fl : Str → Str} {t : Str} {v : Val} (h : JText fl t v) : DeepWF v := by
  refine JText.rec (fl := fl) (motive_1 := fun _ v _ => DeepWF v) (motive_2 := fun _ vs _ => ∀ v ∈ vs, DeepWF v)
    (motive_3 := fun _ ms _ => ∀ m ∈ ms, DeepWF m.2) trivial trivial trivial ?_ ?_ ?_ trivial trivial trivial ?_ ?_ ?_ ?_ ?_ ?_ ?_ ?_ ?_ h
  · intros; trivial
  · intros; trivial
  · intros; trivial
  · intros; trivial
  · intros; simp [DeepWF, DeepWFL]
  · intro t vs _ ih; rw [DeepWF]; exact deepWFL_mem.2 ih
  · intros; simp [DeepWF, DeepWFD]
  · intro t ms _ ih; exact ofMembers_wf _ ih
  · intro a t b v _ _ _ ih w hw
    simp only [List.mem_singleton] at hw
    subst hw; exact ih
  · intro a t b q v vs _ _ _ _ ih1 ih2 w hw
    rcases List.mem_cons.1 hw with rfl | hw
    · exact ih1
    · exact ih2 w hw
  · intro a k b c t d n v _ _ _ _ _ _ ih w hw
    simp only [List.mem_singleton] at hw
    subst hw; exact ih
  · intro a k b c t d q n v ms _ _ _ _ _ _ _ ih1 ih2 w hw
    rcases List.mem_cons.1 hw with rfl | hw
    · exact ih1
    · exact ih2 w hw

theorem readVars_given {T : Cli.Tool} {s : Str} {vars : Dict Str Val} (h : CliVars T.float s vars) :
    Cli.readVars T s = .ok vars ∧ ∀ k dd, (k, Val.dict dd) ∈ vars → Dict.WF dd := by
  cases h with
  | none => exact ⟨rfl, by simp⟩
  | some hne hj =>
    constructor
    · unfold Cli.readVars
      rw [if_neg hne]
      have : Cli.doubleQuotes s = s.map (fun c => if c = '\'' then '"' else c) := rfl
      rw [this, (Json.loads_iff _ _ _).2 hj]
      simp only [pure_ok, List.map_map]
      congr 1
      have e : Cli.strKey ∘ (fun kv : Str × Val => (Key.s kv.1, kv.2)) = id := by funext kv; rfl
      rw [e, List.map_id]
    · intro k dd hm
      obtain ⟨_, _, _, _, _, hj, _⟩ := hj
      have := jtext_wf hj
      rw [DeepWF] at this
      have h2 := deepWFD_mem.1 this.2 (.s k, .dict dd) (List.mem_map.2 ⟨(k, .dict dd), hm, rfl⟩)
      rw [DeepWF] at h2
      exact h2.1

/-! ## Records of texts -/

/-- distinct keys, texts as keys and values -/
def TextRec (r : Dict Key Val) : Prop := Dict.WF r ∧ ∀ kv ∈ r, ∃ n s, kv = (Key.s n, Val.str s)

theorem evsOf_texts (reads : List (Option (Nat × List (Str × Str)))) :
    (∀ d ∈ linesOf (evsOf reads), ∃ vals, d = recOf vals) ∧
    ∀ seg ∈ segments (evsOf reads), ∀ d ∈ seg.1 :: seg.2, ∃ vals, d = recOf vals := by
  induction reads with
  | nil => simp [evsOf, segments, linesOf]
  | cons r reads ih =>
    match r with
    | none => exact ih
    | some (0, vals) =>
      constructor
      · simp [evsOf, linesOf]
      · intro seg hs
        simp only [evsOf, segments, List.mem_cons] at hs
        rcases hs with rfl | hs
        · intro d hd
          rcases List.mem_cons.1 hd with rfl | hd
          · exact ⟨vals, rfl⟩
          · exact ih.1 d hd
        · exact ih.2 seg hs
    | some (k + 1, vals) =>
      constructor
      · intro d hd
        simp only [evsOf, linesOf, List.mem_cons] at hd
        rcases hd with rfl | hd
        · exact ⟨vals, rfl⟩
        · exact ih.1 d hd
      · intro seg hs
        simp only [evsOf, segments] at hs
        exact ih.2 seg hs

theorem recOf_get {vals : List (Str × Str)} {k : Key} {v : Val} (h : Dict.get? (recOf vals) k = some v) : ∃ n s, k = .s n ∧ v = .str s := by
  have := Dict.mem_of_get? _ _ _ h
  obtain ⟨nv, _, e⟩ := List.mem_map.1 this
  cases e
  exact ⟨_, _, rfl, rfl⟩

theorem textRec_of {reads : List (Option (Nat × List (Str × Str)))} {recs : List (Dict Key Val)}
    (h : All2 (IsRecordOf []) (segments (evsOf reads)) recs) (hw : ∀ r ∈ recs, Dict.WF r) : ∀ r ∈ recs, TextRec r := by
  have hs := (evsOf_texts reads).2
  generalize segments (evsOf reads) = segs at *
  induction h with
  | nil => simp
  | @cons seg r segs recs h1 _ ih =>
    intro r' hr'
    rcases List.mem_cons.1 hr' with rfl | hr'
    · refine ⟨hw _ (by simp), ?_⟩
      rintro ⟨k, v⟩ hkv
      have hg := Dict.get?_of_mem _ _ _ (hw _ (by simp)) hkv
      rw [h1 k] at hg
      obtain ⟨d, hd, hv⟩ := List.exists_of_findSome?_eq_some hg
      rcases List.mem_append.1 hd with hd | hd
      · obtain ⟨vals, rfl⟩ := hs seg (by simp) d hd
        obtain ⟨n, s, rfl, rfl⟩ := recOf_get hv
        exact ⟨n, s, rfl⟩
      · simp only [List.mem_singleton] at hd
        subst hd
        simp [Dict.get?] at hv
    · exact ih (fun r h => hw r (by simp [h])) (fun seg h => hs seg (by simp [h])) r' hr'

/-- a result of text records -/
def TextRows (v : Val) : Prop := ∃ recs : List (Dict Key Val), (∀ r ∈ recs, TextRec r) ∧ v = if recs = [] then .dict [] else oneOrMany recs

theorem textRec_json {r : Dict Key Val} (fl : Str → Str) (h : TextRec r) :
    DeepWF (.dict r) ∧ FloatsOk fl (.dict r) ∧ TextKeys (.dict r) ∧ OneKind (.dict r) := by
  obtain ⟨hw, ht⟩ := h
  have hk : ∀ k ∈ r.map Prod.fst, ∃ s, k = Key.s s := by
    intro k hk
    obtain ⟨kv, hkv, rfl⟩ := List.mem_map.1 hk
    obtain ⟨n, s, rfl⟩ := ht kv hkv
    exact ⟨n, rfl⟩
  refine ⟨?_, ?_, ?_, ?_⟩
  · rw [DeepWF]
    refine ⟨hw, deepWFD_mem.2 ?_⟩
    intro kv hkv
    obtain ⟨n, s, rfl⟩ := ht kv hkv
    trivial
  · rw [FloatsOk]
    clear hw hk
    induction r with
    | nil => trivial
    | cons kv r ih =>
      obtain ⟨n, s, rfl⟩ := ht kv (by simp)
      exact ⟨trivial, ih (fun kv h => ht kv (by simp [h]))⟩
  · rw [TextKeys]
    refine ⟨hk, ?_⟩
    clear hw hk
    induction r with
    | nil => trivial
    | cons kv r ih =>
      obtain ⟨n, s, rfl⟩ := ht kv (by simp)
      exact ⟨trivial, ih (fun kv h => ht kv (by simp [h]))⟩
  · rw [OneKind]
    refine ⟨Or.inl hk, ?_⟩
    clear hw hk
    induction r with
    | nil => trivial
    | cons kv r ih =>
      obtain ⟨n, s, rfl⟩ := ht kv (by simp)
      exact ⟨trivial, ih (fun kv h => ht kv (by simp [h]))⟩

/-- what JSON needs of a value -/
def JsonReady (fl : Str → Str) (v : Val) : Prop := DeepWF v ∧ FloatsOk fl v ∧ TextKeys v ∧ OneKind v

theorem jsonReady_list {fl : Str → Str} {vs : List Val} (h : ∀ v ∈ vs, JsonReady fl v) : JsonReady fl (.list vs) := by
  unfold JsonReady
  rw [DeepWF, FloatsOk, TextKeys, OneKind]
  induction vs with
  | nil => exact ⟨trivial, trivial, trivial, trivial⟩
  | cons v vs ih =>
    obtain ⟨a, b, c, d⟩ := h v (by simp)
    obtain ⟨a', b', c', d'⟩ := ih (fun v h' => h v (by simp [h']))
    exact ⟨⟨a, a'⟩, ⟨b, b'⟩, ⟨c, c'⟩, ⟨d, d'⟩⟩

theorem textRows_json {v : Val} (fl : Str → Str) (h : TextRows v) : JsonReady fl v := by
  obtain ⟨recs, hr, rfl⟩ := h
  split
  · exact textRec_json fl (r := []) ⟨by simp [Dict.WF, Dict.keys], by simp⟩
  · match recs, hr with
    | [r], hr => exact textRec_json fl (hr r (by simp))
    | [], _ => exact jsonReady_list (by simp)
    | r :: r2 :: rs, hr =>
      have : oneOrMany (r :: r2 :: rs) = .list ((r :: r2 :: rs).map .dict) := rfl
      rw [this]
      apply jsonReady_list
      intro v hv
      obtain ⟨r', hr', rfl⟩ := List.mem_map.1 hv
      exact textRec_json fl (hr r' hr')

/-- a record of texts equals another one: the same value for every key -/
theorem same_textRec {r : Dict Key Val} (hr : TextRec r) {w : Val} (h : SameVal (.dict r) w) : ∃ r', w = .dict r' ∧ ∀ k, Dict.get? r' k = Dict.get? r k := by
  cases h with
  | @dict _ b h1 h2 =>
    refine ⟨b, rfl, ?_⟩
    intro k
    cases hk : Dict.get? r k with
    | none =>
      cases hb : Dict.get? b k with
      | none => rfl
      | some y =>
        obtain ⟨x, hx⟩ := (h1 k).2 ⟨y, hb⟩
        rw [hk] at hx; cases hx
    | some x =>
      obtain ⟨y, hy⟩ := (h1 k).1 ⟨x, hk⟩
      have := h2 k x y hk hy
      obtain ⟨n, s, e⟩ := hr.2 _ (Dict.mem_of_get? _ _ _ hk)
      cases e
      cases this
      exact hy

theorem same_list {a : List Val} {w : Val} (h : SameVal (.list a) w) : ∃ b, w = .list b ∧ All2 SameVal a b := by
  cases h with
  | @list _ b hl h =>
    refine ⟨b, rfl, ?_⟩
    induction a generalizing b with
    | nil => cases b with
      | nil => exact .nil
      | cons _ _ => simp at hl
    | cons x a ih => cases b with
      | nil => simp at hl
      | cons y b =>
        exact .cons (h 0 x y rfl rfl) (ih (by simpa using hl) (fun i x y h1 h2 => h (i + 1) x y (by simpa using h1) (by simpa using h2)))

theorem all2_single {α β γ : Type} {R : α → β → Prop} {S : α → γ → Prop} {l : List α} {b : β} {c : γ} (h : All2 R l [b]) (hs : ∀ a, R a b → S a c) : All2 S l [c] := by
  cases h with
  | cons h1 h2 => cases h2; exact .cons (hs _ h1) .nil

theorem all2_through {α β γ : Type} {R : α → β → Prop} {Q : β → γ → Prop} {S : α → γ → Prop} {l : List α} {m : List β} {n : List γ} (h : All2 R l m) (h' : All2 Q m n)
    (hs : ∀ a b c, R a b → Q b c → S a c) : All2 S l n := by
  induction h generalizing n with
  | nil => cases h'; exact .nil
  | cons h1 _ ih => cases h' with
    | cons h2 h3 => exact .cons (hs _ _ _ h1 h2) (ih h3)

/-- what a reader of JSON gets means the same -/
theorem plainMeans_same {tpl : List TplLine} {d : Str} {v w : Val} (h : PlainMeans tpl d v) (ht : TextRows v) (hs : SameVal v w) : PlainMeans tpl d w := by
  obtain ⟨reads, recs, h1, h2, hv⟩ := h
  -- the records of `w`
  by_cases hne : recs = []
  · subst hne
    rw [if_pos rfl] at hv
    subst hv
    obtain ⟨r', rfl, hr'⟩ := same_textRec (r := []) ⟨by simp [Dict.WF, Dict.keys], by simp⟩ hs
    have : r' = [] := by
      cases r' with
      | nil => rfl
      | cons kv r' =>
        have := hr' kv.1
        simp [Dict.get?] at this
    subst this
    exact ⟨reads, [], h1, h2, rfl⟩
  · rw [if_neg hne] at hv
    obtain ⟨recs', ht', hv'⟩ := ht
    by_cases hne' : recs' = []
    · rw [if_pos hne', hv] at hv'
      -- one empty record
      match recs, hne, hv', hv with
      | [r], _, hv', hv =>
        have : r = [] := by cases hv'; rfl
        subst this
        have hv : v = .dict [] := hv
        subst hv
        obtain ⟨r', rfl, hr'⟩ := same_textRec (r := []) ⟨by simp [Dict.WF, Dict.keys], by simp⟩ hs
        refine ⟨reads, [r'], h1, ?_, by rw [if_neg (by simp)]; rfl⟩
        exact all2_single h2 (fun seg a k => by rw [hr' k]; exact a k)
    · rw [if_neg hne'] at hv'
      have hrecs : recs = recs' := by
        rw [hv] at hv'
        match recs, recs', hne, hne', hv' with
        | [a], [b], _, _, e => cases e; rfl
        | [a], _ :: _ :: _, _, _, e => cases e
        | _ :: _ :: _, [b], _, _, e => cases e
        | a :: b :: c, a' :: b' :: c', _, _, e =>
          have := Val.list.inj e
          exact (List.map_inj_right (fun x y h => Val.dict.inj h)).1 this
      subst hrecs
      subst hv
      match recs, hne, ht', h2, hs with
      | [r], _, ht', h2, hs =>
        obtain ⟨r', rfl, hr'⟩ := same_textRec (ht' r (by simp)) hs
        refine ⟨reads, [r'], h1, ?_, by rw [if_neg (by simp)]; rfl⟩
        exact all2_single h2 (fun seg a k => by rw [hr' k]; exact a k)
      | r :: r2 :: rs, _, ht', h2, hs =>
        have e : oneOrMany (r :: r2 :: rs) = .list ((r :: r2 :: rs).map .dict) := rfl
        rw [e] at hs
        obtain ⟨b, rfl, hb⟩ := same_list hs
        generalize hl : r :: r2 :: rs = recs at *
        have key : ∀ (recs : List (Dict Key Val)) (b : List Val), (∀ r ∈ recs, TextRec r) → All2 SameVal (recs.map .dict) b →
            ∃ recs', b = recs'.map .dict ∧ All2 (fun r r' => ∀ k, Dict.get? r' k = Dict.get? r k) recs recs' := by
          intro recs
          induction recs with
          | nil => intro b _ h; cases h; exact ⟨[], rfl, .nil⟩
          | cons r recs ih =>
            intro b ht h
            cases h with
            | cons h1 h2 =>
              obtain ⟨r', rfl, hr'⟩ := same_textRec (ht r (by simp)) h1
              obtain ⟨recs', rfl, h'⟩ := ih _ (fun r h => ht r (by simp [h])) h2
              exact ⟨r' :: recs', rfl, .cons hr' h'⟩
        obtain ⟨recs', rfl, h'⟩ := key recs b ht' hb
        refine ⟨reads, recs', h1, ?_, ?_⟩
        · exact all2_through h2 h' (fun seg r r' a b k => by rw [b k]; exact a k)
        · subst hl
          cases h' with
          | cons _ h' => cases h' with
            | cons _ _ => rw [if_neg (by simp)]; rfl

/-- one text, with what JSON needs -/
theorem plain_one_text (mf : MatchFns) (gf : GroupFns) (toInt : Bool) (l : TplLine) (tpl : List TplLine) (ho : ∀ l' ∈ l :: tpl, l'.OK) (d : Str)
    (hc : Clear (l :: tpl) d) (env : Env) : ∃ v w, (PlainMeans (l :: tpl) d w ∧ TextRows w) ∧
      (parseText mf gf toInt [] [tplGrp c!"_anonymous_" l tpl] (dataText d) env (.dict [])).map (·.results) = .ok v ∧ formDatum v = .ok w := by
  obtain ⟨reads, hr⟩ := reads_of_clear _ _ hc
  obtain ⟨recs, h1, h2, h3⟩ := parse_tpl_any mf gf toInt c!"_anonymous_" (by decide) l tpl ho (splitC '\n' d) (splitC_ne_nil '\n' d)
    (fun t ht => splitC_no_sep '\n' d t ht) reads hr env
  rw [join_splitC] at h3
  have hp : parsePath [c!"_anonymous_"] = [⟨c!"_anonymous_", 0⟩] := by decide
  have hk : keyOf toInt c!"_anonymous_" = .s c!"_anonymous_" := by cases toInt <;> decide
  have h4 := saveMany_plain toInt c!"_anonymous_" (by decide) hk recs h2 [] (by simp)
  have hk0 : keyed ([] : List (Str × Dict Key Val)) = [] := rfl
  rw [hk0, List.nil_append] at h4
  rw [hp, h4] at h3
  refine ⟨_, if recs = [] then .dict [] else oneOrMany recs, ⟨⟨reads, recs, hr, h1, rfl⟩, recs, textRec_of h1 (fun r h => (h2 r h).1), rfl⟩, h3, ?_⟩
  by_cases hne : recs = []
  · subst hne; rfl
  · rw [keyed_one _ _ hne, if_neg hne]; rfl

end TTP
