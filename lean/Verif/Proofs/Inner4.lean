import Verif.Proofs.Inner3
import Verif.Proofs.Extend
/-!
# Templates inside of templates are loaded as in the model of trees
-/

namespace TTP
open Py Spec

theorem handle_xml {w : World} {macros : Str → Option (Str → PyM Str)} {t t' : Option Str} {cs ys : List Xml}
    (h : Expands w XmlText.parse macros true true t cs t' ys) : ∃ N, ∀ n, N ≤ n → handleExtend w (xmlCtx macros n) n false true [] cs t = .ok (t', ys) := by
  obtain ⟨N, hN⟩ := handle_expands (write := XmlText.tostring true) h
  refine ⟨N, fun n hn => ?_⟩
  have e := hN n hn false (fun _ => rfl) t t' (fun _ => ⟨rfl, rfl⟩) (by intro e; cases e) []
  have := handle_limit w ⟨XmlText.parse, XmlText.tostring true, macros, 0⟩ n n
  unfold xmlCtx
  dsimp only at this ⊢
  rw [this, e, List.nil_append]

theorem readBytes_full {w : World} {macros : Str → Option (Str → PyM Str)} {n : Str} {a : Dict Str Str} {t t' tl : Option Str} {cs ys : List Xml}
    (hne : cs ≠ []) (hb : ∀ s, tl = some s → XBlank s) (hr : NoReturns (.mk n a t cs tl)) (h : Expands w XmlText.parse macros true true t cs t' ys)
    (hys : ys ≠ []) (hr' : NoReturns (.mk n a t' ys none)) (hp : ProperXml (.mk n a t cs tl)) (ht : lower n = c!"template") :
    ∃ N, ∀ k, N ≤ k → readBytes w (xmlCtx macros k) (XmlText.tostring false (.mk n a t cs tl)) = .ok (.mk n a t' ys none) := by
  obtain ⟨N, hN⟩ := handle_xml h
  refine ⟨N, fun k hk => ?_⟩
  have e1 := XmlText.parse_tostring_blank false hp hr hb
  have e0 := constructBytes_whole (parse := (xmlCtx macros k).parse) (x := .mk n a t cs none) e1 ht hne
  have e2 : handleExtend w (xmlCtx macros k) (xmlCtx macros k).limit false true [] cs t = .ok (t', ys) := hN k hk
  unfold readBytes
  simp only [e0, ok_bind, Xml.children, Xml.text, e2, Xml.tag, Xml.attrib, Xml.tail]
  have hp' : ProperXml (.mk n a t' ys none) := by
    obtain ⟨h1, h2⟩ := XmlText.expands_proper h (XmlText.proper_text hp) (XmlText.proper_children hp)
    cases hp with
    | mk g1 g2 g3 g4 g5 g6 g7 => exact .mk g1 g2 g3 g4 h1 (XmlText.properXmls_iff.2 h2) XmlText.proper_none
  have e3 : XmlText.parse (XmlText.tostring true (Xml.mk n a t' ys none)) = some (Xml.mk n a t' ys none) := XmlText.parse_tostring true hp' hr' rfl
  exact constructEtree_tree (parse := XmlText.parse) (.whole e3 ht hys)

/-- a template without elements, of bytes -/
theorem readBytes_plain {w : World} {macros : Str → Option (Str → PyM Str)} {limit : Nat} {n : Str} {a : Dict Str Str} {t tl : Option Str}
    (hb : ∀ s, tl = some s → XBlank s) (hr : NoReturns (.mk n a t [] tl)) (hp : ProperXml (.mk n a t [] tl)) (ht : lower n = c!"template") :
    readBytes w (xmlCtx macros limit) (XmlText.tostring false (.mk n a t [] tl)) = .ok (XmlText.templateAround (.mk n a t [] tl)) := by
  have e1 := XmlText.parse_tostring_blank false hp hr hb
  have e2 := XmlText.parse_groupAround hp
  have e3 : constructBytes (xmlCtx macros limit).parse (XmlText.tostring false (.mk n a t [] tl)) = .ok (XmlText.templateAround (.mk n a t [] tl)) := by
    unfold constructBytes
    simp only [xmlCtx]
    simp only [Xml.tag, Xml.attrib, Xml.text, Xml.children] at e1
    simp only [e1, ht, if_true, pure_ok, ok_bind, e2, Xml.tag, Xml.children, List.isEmpty_nil]
  have hst : SettledAll (XmlText.templateAround (.mk n a t [] tl)).children := by
    refine .cons (.mk (by decide) (fun _ => .cons ?_ .nil)) .nil
    have hk : (XmlText.shown (reprQuote (XmlText.serialize (.mk n a t [] tl))) (.mk n a t [] tl)).tag = n := XmlText.shown_tag _ _
    generalize XmlText.shown (reprQuote (XmlText.serialize (.mk n a t [] tl))) (.mk n a t [] tl) = y at hk
    obtain ⟨n', a', t', cs', tl'⟩ := y
    have hk' : n' = n := hk
    subst hk'
    exact .mk (by rintro rfl; exact absurd ht (by decide)) (by rintro rfl; exact absurd ht (by decide))
  unfold readBytes
  rw [e3, ok_bind, handle_settled_id w (xmlCtx macros limit) (xmlCtx macros limit).limit false true _ hst [] _, ok_bind]
  have e4 : XmlText.parse (XmlText.tostring true (XmlText.templateAround (.mk n a t [] tl))) = some (XmlText.templateAround (.mk n a t [] tl)) :=
    XmlText.parse_tostring true (XmlText.groupAround_proper hp) (XmlText.groupAround_noReturns _) rfl
  generalize (Xml.mk n a t [] tl) = z at e4 ⊢
  have e5 : lower (XmlText.templateAround z).tag = c!"template" := by show lower c!"template" = c!"template"; decide
  have e6 : (XmlText.templateAround z).children ≠ [] := by simp [XmlText.templateAround, Xml.children]
  exact constructEtree_tree (parse := XmlText.parse) (.whole e4 e5 e6)

theorem rewrap_bytes {x : Xml} (hp : ProperXml x) : rewrapBytes x = XmlText.groupAround x := by
  unfold rewrapBytes
  rw [XmlText.parse_groupAround hp]
  rfl

/-- how the model of trees loads a template inside -/
def loadInside (C : TplCtx) (ovars : Dict Str Val) (a0 : TAttrs) (x : Xml) : PyM TplNode :=
  if x.children.isEmpty then do
    let r ← loadRest C ovars a0 ⟨[], [C.rewrap x], [], [], [], []⟩
    pure (TplNode.mk r.1 [])
  else loadTpl C ovars a0 [] x

/-- the attributes that a template inside gets -/
def insideAttrs (n base : Str) : TAttrs := ⟨n, base, c!"per_input", c!"."⟩

/-- elements, and the elements that are loaded instead -/
inductive Loads (C : TplCtx) (ovars : Dict Str Val) (inner : TAttrs → Str → PyM TplNode) : List Xml → List Xml → Prop
  | nil : Loads C ovars inner [] []
  | template {x y : Xml} {xs ys : List Xml} : lower x.tag = c!"template" → y.tag = x.tag → y.attrib = x.attrib →
      (∀ m b, inner (insideAttrs m b) (XmlText.tostring false x) = loadInside C ovars (insideAttrs m b) y) → Loads C ovars inner xs ys → Loads C ovars inner (x :: xs) (y :: ys)
  | other {x : Xml} {xs ys : List Xml} : lower x.tag ≠ c!"template" → Loads C ovars inner xs ys → Loads C ovars inner (x :: xs) (x :: ys)

theorem loads_ne {C : TplCtx} {ovars : Dict Str Val} {inner : TAttrs → Str → PyM TplNode} {xs ys : List Xml} (h : Loads C ovars inner xs ys) (hne : xs ≠ []) : ys ≠ [] := by
  cases h <;> simp_all

/-- the templates inside are the same -/
theorem loadInners_same {C : TplCtx} {ovars : Dict Str Val} {inner : TAttrs → Str → PyM TplNode} {xs ys : List Xml} (h : Loads C ovars inner xs ys)
    (base : Str) (fs : List Str) : ∀ (k : Nat), loadInners inner base fs k xs = loadTpls C ovars base fs k ys := by
  induction h with
  | nil => intro k; rw [loadInners, loadTpls]
  | @template x y xs ys h1 h2 h3 h4 _ ih =>
    intro k
    rw [loadInners, loadTpls, h2, h3]
    have hk : ¬ tagKind x.tag ≠ .template := by simpa using (kind_template x.tag).2 (by simpa using h1)
    rw [if_neg hk, if_neg hk]
    have h4' := h4 (natStr k) base
    unfold insideAttrs at h4'
    rw [ih, h4']
    unfold loadInside
    cases y.children.isEmpty with
    | true =>
      rw [if_pos rfl, if_pos rfl]
      cases loadRest C ovars ⟨natStr k, base, c!"per_input", c!"."⟩ ⟨[], [C.rewrap y], [], [], [], []⟩ <;> rfl
    | false => rfl
  | @other x xs ys h1 _ ih =>
    intro k
    rw [loadInners, loadTpls]
    have hk : tagKind x.tag ≠ .template := by
      intro e
      have := (kind_template x.tag).1 e
      exact h1 (by simpa using this)
    rw [if_pos hk, if_pos hk, ih]

/-- the other tags are the same -/
def SameTags (a b : Tags) : Prop := a.vars = b.vars ∧ a.groups = b.groups ∧ a.outputs = b.outputs ∧ a.inputs = b.inputs ∧ a.lookups = b.lookups

theorem collect_same {C : TplCtx} {ovars : Dict Str Val} {inner : TAttrs → Str → PyM TplNode} {xs ys : List Xml} (h : Loads C ovars inner xs ys) :
    ∀ (a b : Tags), SameTags a b → (∃ r s, collectTags xs a = .ok r ∧ collectTags ys b = .ok s ∧ SameTags r s) ∨
      ∃ e, collectTags xs a = .error e ∧ collectTags ys b = .error e := by
  induction h with
  | nil => intro a b hab; exact Or.inl ⟨a, b, rfl, rfl, hab⟩
  | @template x y xs ys h1 h2 h3 h4 _ ih =>
    intro a b hab
    have hk : tagKind x.tag = .template := (kind_template x.tag).2 (by simpa using h1)
    simp only [collectTags, h2, hk]
    exact ih _ _ hab
  | @other x xs ys h1 _ ih =>
    intro a b hab
    obtain ⟨i1, i2, i3, i4, i5⟩ := hab
    simp only [collectTags]
    cases tagKind x.tag with
    | vars => exact ih _ _ ⟨by simp [i1], i2, i3, i4, i5⟩
    | group => exact ih _ _ ⟨i1, by simp [i2], i3, i4, i5⟩
    | output => exact ih _ _ ⟨i1, i2, by simp [i3], i4, i5⟩
    | input => exact ih _ _ ⟨i1, i2, i3, by simp [i4], i5⟩
    | lookup => exact ih _ _ ⟨i1, i2, i3, i4, by simp [i5]⟩
    | template => exact ih _ _ ⟨i1, i2, i3, i4, i5⟩
    | doc =>
      dsimp only
      by_cases ht : x.text = none
      · rw [if_pos ht, if_pos ht]; exact Or.inr ⟨_, rfl, rfl⟩
      · rw [if_neg ht, if_neg ht]; exact ih _ _ ⟨i1, i2, i3, i4, i5⟩
    | «macro» => exact ih _ _ ⟨i1, i2, i3, i4, i5⟩
    | invalid => exact ih _ _ ⟨i1, i2, i3, i4, i5⟩

theorem rest_same {C : TplCtx} {ovars : Dict Str Val} {a : TAttrs} {r s : Tags} (h : SameTags r s) : loadRest C ovars a r = loadRest C ovars a s := by
  obtain ⟨i1, i2, i3, i4, i5⟩ := h
  unfold loadRest
  rw [i1, i2, i3, i4, i5]

theorem loadWith_same {C : TplCtx} {ovars : Dict Str Val} {inner : TAttrs → Str → PyM TplNode} {n : Str} {a : Dict Str Str} {t t2 tl tl2 : Option Str} {ys zs : List Xml}
    (h : Loads C ovars inner ys zs) (a0 : TAttrs) (fs : List Str) :
    loadWith C ovars inner a0 fs (.mk n a t ys tl) = loadTpl C ovars a0 fs (.mk n a t2 zs tl2) := by
  unfold loadWith
  rw [loadTpl]
  dsimp only [Xml.attrib, Xml.children]
  split
  · rfl
  · rw [loadInners_same h]
    rcases collect_same h ⟨[], [], [], [], [], []⟩ ⟨[], [], [], [], [], []⟩ ⟨rfl, rfl, rfl, rfl, rfl⟩ with ⟨r, s, e1, e2, e3⟩ | ⟨e, e1, e2⟩
    · rw [e1, e2, ok_bind, ok_bind, rest_same e3]
    · rw [e1, e2, err_bind]

mutual
theorem loadBytes_becomes (C : TplCtx) (hrw : C.rewrap = rewrapBytes) (macros : Str → Option (Str → PyM Str)) (ovars : Dict Str Val) : ∀ {x y : Xml},
    Becomes C.eng.world XmlText.parse macros x y → ProperXml x → lower x.tag = c!"template" → y.tag = x.tag ∧ y.attrib = x.attrib ∧
    ∃ N, ∀ n, N ≤ n → ∀ k, N ≤ k → ∀ m b, loadBytes C (xmlCtx macros k) ovars n (insideAttrs m b) (XmlText.tostring false x) = loadInside C ovars (insideAttrs m b) y
  | _, _, @Becomes.plain _ _ _ n a t tl h1 h2, hp, ht => by
    refine ⟨rfl, rfl, 1, fun j hj k _ m b => ?_⟩
    obtain ⟨j, rfl⟩ : ∃ i, j = i + 1 := ⟨j - 1, by omega⟩
    rw [loadBytes, readBytes_plain h1 h2 hp ht, ok_bind]
    unfold loadInside
    rw [if_pos (by rfl), hrw, rewrap_bytes hp]
    rfl
  | _, _, @Becomes.full _ _ _ n a t t' tl cs ys zs h1 h2 h3 h4 h5 h6 h7, hp, ht => by
    refine ⟨rfl, rfl, ?_⟩
    obtain ⟨N, hN⟩ := readBytes_full h1 h2 h3 h4 h5 h6 hp ht
    have hps : ∀ y ∈ ys, ProperXml y := (XmlText.expands_proper h4 (XmlText.proper_text hp) (XmlText.proper_children hp)).2
    obtain ⟨M, hM⟩ := loads_becomeAll C hrw macros ovars h7 hps
    refine ⟨N + M + 1, fun j hj k hk m b => ?_⟩
    obtain ⟨j, rfl⟩ : ∃ i, j = i + 1 := ⟨j - 1, by omega⟩
    have hl := hM j (by omega) k (by omega)
    rw [loadBytes, hN k (by omega), ok_bind, loadWith_same (t2 := t') (tl2 := tl) hl]
    unfold loadInside
    have hz := loads_ne hl h5
    rw [if_neg (by intro e; exact hz (List.isEmpty_iff.1 e))]
theorem loads_becomeAll (C : TplCtx) (hrw : C.rewrap = rewrapBytes) (macros : Str → Option (Str → PyM Str)) (ovars : Dict Str Val) : ∀ {xs ys : List Xml},
    BecomeAll C.eng.world XmlText.parse macros xs ys → (∀ x ∈ xs, ProperXml x) →
    ∃ N, ∀ n, N ≤ n → ∀ k, N ≤ k → Loads C ovars (loadBytes C (xmlCtx macros k) ovars n) xs ys
  | _, _, .nil, _ => ⟨0, fun _ _ _ _ => .nil⟩
  | _, _, .template h1 h2 h3, hp => by
    obtain ⟨e1, e2, N, hN⟩ := loadBytes_becomes C hrw macros ovars h2 (hp _ (by simp)) h1
    obtain ⟨M, hM⟩ := loads_becomeAll C hrw macros ovars h3 (fun x hx => hp x (by simp [hx]))
    exact ⟨N + M, fun n hn k hk => .template h1 e1 e2 (hN n (by omega) k (by omega)) (hM n (by omega) k (by omega))⟩
  | _, _, .other h1 h3, hp => by
    obtain ⟨M, hM⟩ := loads_becomeAll C hrw macros ovars h3 (fun x hx => hp x (by simp [hx]))
    exact ⟨M, fun n hn k hk => .other h1 (hM n hn k hk)⟩
end

/-- templates that are added as texts are added as trees -/
theorem addTemplateText_tree (C : TplCtx) (hrw : C.rewrap = rewrapBytes) (macros : Str → Option (Str → PyM Str)) (o : TTPObj) (base name : Str)
    (filters : List Str) {arg text : Str} (hg : Given C.eng.world arg text) (htne : text ≠ []) {x : Xml} (hx : TreeOf XmlText.parse text x) {t : Option Str} {ys zs : List Xml}
    (h : Expands C.eng.world XmlText.parse macros true true x.text x.children t ys) (hne : ys ≠ []) (hr : NoReturns (.mk x.tag x.attrib t ys x.tail))
    (hz : BecomeAll C.eng.world XmlText.parse macros ys zs) :
    ∃ N, ∀ n, N ≤ n → ∀ k, N ≤ k → addTemplateText C (xmlCtx macros k) n o base name filters arg =
      addTemplateXml C o base name filters (.mk x.tag x.attrib t zs x.tail) := by
  obtain ⟨hp, _⟩ := XmlText.tree_proper hx
  have hps : ∀ y ∈ ys, ProperXml y := (XmlText.expands_proper h (XmlText.proper_text hp) (XmlText.proper_children hp)).2
  obtain ⟨N, hN⟩ := handle_xml h
  obtain ⟨M, hM⟩ := loads_becomeAll C hrw macros o.vars hz hps
  refine ⟨N + M, fun n hn k hk => ?_⟩
  have hrd : readTemplate C.eng.world (xmlCtx macros k) text = .ok (.mk x.tag x.attrib t ys x.tail) := by
    unfold readTemplate
    rw [if_neg htne, constructEtree_tree (parse := (xmlCtx macros k).parse) hx, ok_bind]
    have e2 : handleExtend C.eng.world (xmlCtx macros k) (xmlCtx macros k).limit false true [] x.children x.text = .ok (t, ys) := hN k (by omega)
    rw [e2, ok_bind]
    exact constructEtree_tree (parse := XmlText.parse) (XmlText.expands_reread hx h hne hr)
  unfold addTemplateText
  simp only [loadRead_given hg, ok_bind, addAllTexts, loadText, hrd]
  rw [loadWith_same (t2 := t) (tl2 := x.tail) (hM n (by omega) k (by omega))]
  unfold addTemplateXml
  cases loadTpl C o.vars ⟨name, base, c!"per_input", c!"."⟩ filters (.mk x.tag x.attrib t zs x.tail) <;> rfl

mutual
/-- elements without `extend` tags stand for themselves -/
theorem settled_expand {w : World} {parse : Str → Option Xml} {macros : Str → Option (Str → PyM Str)} : ∀ {cs : List Xml}, SettledAll cs →
    ∀ (own top : Bool) (t : Option Str), Expands w parse macros own top t cs t cs
  | _, .nil, _, _, _ => .nil
  | _, .cons h1 h2, own, top, t => settled_cons h1 own top t _ (settled_expand h2 own top t)
theorem settled_cons {w : World} {parse : Str → Option Xml} {macros : Str → Option (Str → PyM Str)} : ∀ {x : Xml}, Spec.Settled x →
    ∀ (own top : Bool) (t : Option Str) (cs : List Xml), Expands w parse macros own top t cs t cs → Expands w parse macros own top t (x :: cs) t (x :: cs)
  | _, @Settled.mk tag a s ks tl h1 h2, own, top, t, cs, h => by
    by_cases e : tag = c!"group"
    · have := settled_expand (w := w) (parse := parse) (macros := macros) (h2 e) true false s
      subst e
      exact .group this h
    · exact .other h1 e h
end

end TTP
