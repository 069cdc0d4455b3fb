import Verif.Spec.Dns
import Verif.Proofs.PyStr
import Verif.Proofs.Template
import Verif.Proofs.Save
import Verif.Proofs.Lazy
/-!
# Name lookups (C158, C159)
-/

namespace TTP.Dns
open Py Spec

theorem insertStr_perm (a : Str) (l : List Str) : (insertStr a l).Perm (a :: l) := by
  induction l with
  | nil => exact List.Perm.refl _
  | cons b l ih =>
    rw [insertStr]
    split
    · exact (ih.cons b).trans (List.Perm.swap a b l)
    · exact List.Perm.refl _

theorem sorted_perm (l : List Str) : (sorted l).Perm l := by
  induction l with
  | nil => exact List.Perm.refl _
  | cons a l ih => exact (insertStr_perm a _).trans (ih.cons a)

theorem insertStr_asc (a : Str) (l : List Str) (h : Ascending l) : Ascending (insertStr a l) := by
  induction l with
  | nil => simp [insertStr, Ascending]
  | cons b l ih =>
    rw [insertStr]
    unfold Ascending at h ⊢
    rw [List.pairwise_cons] at h
    split
    · rename_i hb
      rw [List.pairwise_cons]
      refine ⟨fun x hx => ?_, ih h.2⟩
      rcases List.mem_cons.mp ((insertStr_perm a l).mem_iff.mp hx) with rfl | hx
      · intro hlt; exact List.lt_asymm hb hlt
      · exact h.1 x hx
    · rename_i hb
      rw [List.pairwise_cons, List.pairwise_cons]
      refine ⟨fun x hx => ?_, h⟩
      rcases List.mem_cons.mp hx with rfl | hx
      · exact hb
      · intro hlt
        have h1 : b ≤ x := h.1 x hx
        have h2 : a ≤ b := hb
        exact (List.le_trans h2 h1) hlt

theorem sorted_asc (l : List Str) : Ascending (sorted l) := by
  induction l with
  | nil => exact List.Pairwise.nil
  | cons a l ih => exact insertStr_asc a _ ih

theorem order_asked (w : Way) (l : List Str) : AskedOf w l (order w l) := by
  cases w with
  | forward r => exact ⟨sorted_perm l, sorted_asc l⟩
  | reverse => rfl

theorem given_named (c : Call) (l : List Str) (h : NamesServers c l) : given c.servers = some l := by
  rcases h with ⟨h, hl⟩ | ⟨parts, h, hne, hp, hc, rfl⟩
  · rw [h]; simp [given, hl]
  · rw [h]; simp only [given, if_neg hne]
    rw [splitC_join ',' parts hp hc]

theorem given_nameless (c : Call) (h : NamesNone c) : given c.servers = none := by
  rcases h with h | h | h <;> rw [h] <;> rfl

theorem after_snoc (system : List Str) (h : List Call) (c : Call) : after system (h ++ [c]) = (call system (after system h) c).1 := by
  simp [after, List.foldl_append]

theorem after_timeout (system : List Str) (h : List Call) (c : Call) (ht : TimesOut system h c) :
    after system (h ++ [c]) = fresh system := by
  obtain ⟨q, hq, hn⟩ := ht
  rw [after_snoc]
  unfold asks at hq; unfold call
  by_cases hb : badName c
  · simp [hb] at hq
  · simp only [hb, Bool.false_eq_true, if_false, Option.some.injEq] at hq ⊢
    subst hq; rw [hn]; rfl

theorem after_else (system : List Str) (h : List Call) (c : Call) (ht : ¬ TimesOut system h c) :
    after system (h ++ [c]) = adjust (after system h) c := by
  rw [after_snoc]
  unfold call
  by_cases hb : badName c
  · simp [hb]
  · simp only [hb, Bool.false_eq_true, if_false]
    cases ha : c.net (inquiry (after system h) c) with
    | tooLate => exact absurd ⟨inquiry (after system h) c, by simp [asks, hb], ha⟩ ht
    | records rs => rfl
    | noName => rfl
    | noAnswer => rfl
    | failed => rfl

theorem adjust_named (r : Resolver) (c : Call) (l : List Str) (h : NamesServers c l) : (adjust r c).servers = order c.way l := by
  simp [adjust, given_named c l h]

theorem adjust_nameless (r : Resolver) (c : Call) (h : NamesNone c) : (adjust r c).servers = r.servers := by
  simp [adjust, given_nameless c h]

theorem named_or (c : Call) : NamesNone c ∨ ∃ l, NamesServers c l := by
  unfold NamesNone NamesServers
  cases hs : c.servers with
  | missing => exact Or.inl (Or.inl rfl)
  | text s =>
    by_cases h : s = []
    · subst h; exact Or.inl (Or.inr (Or.inl rfl))
    · refine Or.inr ⟨_, Or.inr ⟨splitC ',' s, ?_, ?_, splitC_ne_nil _ _, fun p hp => splitC_no_sep _ _ p hp, rfl⟩⟩
      · rw [join_splitC]
      · rw [join_splitC]; exact h
  | list l =>
    by_cases h : l = []
    · subst h; exact Or.inl (Or.inr (Or.inr rfl))
    · exact Or.inr ⟨l, Or.inl ⟨rfl, h⟩⟩

/-- what happened since the last call that named servers, or got no answer in time -/
theorem servers_kept (system : List Str) (h h2 : List Call) (hn : ∀ c ∈ h2, NamesNone c) (ht : ¬ SomeTimeOut system h h2) :
    (after system (h ++ h2)).servers = (after system h).servers := by
  induction h2 using TTP.snoc_ind with
  | nil => simp
  | snoc h2 c ih =>
    rw [← List.append_assoc, after_else, adjust_nameless _ _ (hn c (by simp)), ih (fun x hx => hn x (by simp [hx]))]
    · rintro ⟨a, x, b, he, hx⟩
      exact ht ⟨a, x, b ++ [c], by simp [he], hx⟩
    · intro hx
      exact ht ⟨h2, c, [], rfl, hx⟩

end TTP.Dns

namespace Props
open Py TTP TTP.Dns Spec

/-- **C158**, the full claim: a lookup asks the servers that it names, otherwise those of the system. This part: it asks those that it
names; one that names none asks those of the system, if every earlier call that named some was followed by (or was) one that got no
answer in time. The name, the kind of record and the two times are always its own. -/
theorem C158_servers_partial (system : List Str) (h : List Call) (c : Call) (q : Inquiry) (ha : asks (after system h) c = some q) :
    (∀ l, NamesServers c l → AskedOf c.way l q.resolver.servers) ∧
    (NamesNone c → (∀ h1 c0 h2 l, h = h1 ++ c0 :: h2 → NamesServers c0 l → SomeTimeOut system h1 (c0 :: h2)) → q.resolver.servers = system) ∧
    q.name = c.data ∧ (∀ r, c.way = .forward r → q.kind = r) ∧ (c.way = .reverse → q.kind = c!"PTR") ∧
    q.resolver.timeout = c.timeout ∧ q.resolver.lifetime = c.timeout * q.resolver.servers.length := by
  unfold asks at ha
  by_cases hb : badName c
  · simp [hb] at ha
  · simp only [hb, Bool.false_eq_true, if_false, Option.some.injEq] at ha
    subst ha
    refine ⟨fun l hl => ?_, fun hn hh => ?_, rfl, fun r hr => ?_, fun hr => ?_, rfl, rfl⟩
    · show AskedOf _ _ (adjust _ c).servers
      rw [adjust_named _ c l hl]; exact order_asked _ _
    · show (adjust _ c).servers = _
      rw [adjust_nameless _ c hn]
      clear hn hb
      induction h using TTP.snoc_ind with
      | nil => rfl
      | snoc h x ih =>
        by_cases hx : TimesOut system h x
        · rw [after_timeout _ _ _ hx]; rfl
        · rw [after_else _ _ _ hx]
          rcases named_or x with hx' | ⟨l, hl⟩
          · rw [adjust_nameless _ _ hx']
            refine ih (fun h1 c0 h2 l he hl => ?_)
            obtain ⟨a, y, b, hy, ht⟩ := hh h1 c0 (h2 ++ [x]) l (by simp [he]) hl
            rcases List.eq_nil_or_concat b with rfl | ⟨b', z, rfl⟩
            · have e : c0 :: h2 ++ [x] = a ++ [y] := by simpa using hy
              obtain ⟨e1, e2⟩ := List.append_inj' e rfl
              simp only [List.cons.injEq, and_true] at e2
              subst e2
              exact absurd (by rw [he, e1]; exact ht) hx
            · have e : c0 :: h2 ++ [x] = (a ++ y :: b') ++ [z] := by simpa using hy
              obtain ⟨e1, e2⟩ := List.append_inj' e rfl
              exact ⟨a, y, b', e1, ht⟩
          · obtain ⟨a, y, b, hy, ht⟩ := hh h x [] l rfl hl
            cases a with
            | nil =>
              simp only [List.nil_append, List.cons.injEq] at hy
              obtain ⟨rfl, _⟩ := hy
              exact absurd (by simpa using ht) hx
            | cons a' as => simp at hy
    · simp [inquiry, hr]
    · simp [inquiry, hr]

/-- **C158**, what is missing: a lookup without servers asks those of the last call that named some, in whatever template and object
that was, unless a call got no answer in time since. -/
theorem C158_leak (system : List Str) (h1 : List Call) (c0 : Call) (h2 : List Call) (c : Call) (l : List Str) (q : Inquiry)
    (h0 : NamesServers c0 l) (hn : ∀ x ∈ h2, NamesNone x) (ht : ¬ SomeTimeOut system h1 (c0 :: h2)) (hc : NamesNone c)
    (ha : asks (after system (h1 ++ c0 :: h2)) c = some q) : AskedOf c0.way l q.resolver.servers := by
  unfold asks at ha
  by_cases hb : badName c
  · simp [hb] at ha
  · simp only [hb, Bool.false_eq_true, if_false, Option.some.injEq] at ha
    subst ha
    show AskedOf _ _ (adjust _ c).servers
    rw [adjust_nameless _ c hc]
    have e : h1 ++ c0 :: h2 = (h1 ++ [c0]) ++ h2 := by simp
    rw [e, servers_kept system (h1 ++ [c0]) h2 hn, after_else, adjust_named _ _ _ h0]
    · exact order_asked _ _
    · intro hx; exact ht ⟨[], c0, h2, rfl, by simpa using hx⟩
    · rintro ⟨a, x, b, he, hx⟩
      exact ht ⟨c0 :: a, x, b, by simp [he], by simpa using hx⟩

theorem rstripDots (r : Str) : ∃ name dots, r = name ++ List.replicate dots '.' ∧ name.getLast? ≠ some '.' ∧ rstripP (· == '.') r = name := by
  refine ⟨rstripP (· == '.') r, (r.reverse.takeWhile (· == '.')).length, ?_, ?_, rfl⟩
  · have h1 : r.reverse.takeWhile (· == '.') = List.replicate (r.reverse.takeWhile (· == '.')).length '.' := by
      rw [List.eq_replicate_iff]
      refine ⟨rfl, fun x hx => ?_⟩
      simpa using TTP.takeWhile_imp _ _ _ hx
    have h2 := List.takeWhile_append_dropWhile (p := (· == '.')) (l := r.reverse)
    have h3 := congrArg List.reverse h2
    rw [List.reverse_append, List.reverse_reverse] at h3
    rw [rstripP, ← List.reverse_replicate, ← h1, h3]
  · rw [rstripP, List.getLast?_reverse]
    intro hx
    have := List.head?_dropWhile_not (· == '.') r.reverse
    rw [hx] at this
    simp at this

/-- **C159**, for every history of lookups: a lookup whose network answers gives what the network answered to it; one that gets no
such name, no such record or no answer in time leaves the value as it is. -/
theorem C159_lookup (system : List Str) (h : List Call) (c : Call) (q : Inquiry) (ha : asks (after system h) c = some q) (r : Val × Flag) :
    (call system (after system h) c).2 = .ok r ↔
      (∃ rs v, c.net q = .records rs ∧ RecordsVal c.way rs v ∧ GoesTo c v r) ∨
      ((c.net q = .noName ∨ c.net q = .noAnswer ∨ c.net q = .tooLate) ∧ r = (.str c.data, .nothing)) := by
  unfold asks at ha
  by_cases hb : badName c
  · simp [hb] at ha
  · simp only [hb, Bool.false_eq_true, if_false, Option.some.injEq] at ha
    have hw : ∀ v, wrap c v = r ↔ GoesTo c v r := by
      intro v
      unfold wrap GoesTo
      cases hf : c.addField with
      | none => simp [eq_comm]
      | some f =>
        cases f with
        | nil => simp [eq_comm]
        | cons x f => simp [eq_comm]
    simp only [call, hb, Bool.false_eq_true, if_false, ha]
    cases hq : c.net q with
    | records rs =>
      simp only [settle, false_and, or_false, reduceCtorEq, Answer.records.injEq]
      cases hway : c.way with
      | forward k =>
        simp only [value, RecordsVal, Except.map, pure_ok, Except.ok.injEq, hw]
        constructor
        · intro hg; exact ⟨rs, _, rfl, rfl, hg⟩
        · rintro ⟨rs', v, rfl, rfl, hg⟩; exact hg
      | reverse =>
        cases rs with
        | nil =>
          simp only [value, RecordsVal, Except.map, throw_err]
          constructor
          · intro e; cases e
          · rintro ⟨rs', v, rfl, ⟨a, b, _, _, e, _⟩, _⟩; cases e
        | cons x xs =>
          simp only [value, RecordsVal, Except.map, pure_ok, Except.ok.injEq, hw]
          obtain ⟨name, dots, e1, e2, e3⟩ := rstripDots x
          constructor
          · intro hg; exact ⟨_, _, rfl, ⟨x, xs, name, dots, rfl, e1, e2, rfl⟩, by rw [← e3]; exact hg⟩
          · rintro ⟨rs', v, rfl, ⟨a, b, n', d', e, f1, f2, rfl⟩, hg⟩
            cases e
            have : rstripP (· == '.') (n' ++ List.replicate d' '.') = n' := by
              rw [rstripP, List.reverse_append, List.reverse_replicate, List.dropWhile_append_of_pos (by simp)]
              cases hr : n'.reverse with
              | nil => simpa using hr.symm
              | cons y ys =>
                have hy : y ≠ '.' := by
                  intro e; apply f2
                  rw [← List.head?_reverse, hr, e]; rfl
                rw [List.dropWhile_cons_of_neg (by simpa using hy), ← hr, List.reverse_reverse]
            rw [f1, this]; exact hg
    | noName => simp [settle, eq_comm]
    | noAnswer => simp [settle, eq_comm]
    | tooLate => simp [settle, eq_comm]
    | failed => simp [settle]

/-- **C159**, when a lookup raises (and so does `parse`): `rdns` of a text that is no address, an answer of another kind, or an empty
answer for `rdns`. -/
theorem C159_raises (system : List Str) (h : List Call) (c : Call) :
    (∃ e, (call system (after system h) c).2 = .error e) ↔
      (c.way = .reverse ∧ c.isAddr c.data = false) ∨
      ∃ q, asks (after system h) c = some q ∧ (c.net q = .failed ∨ (c.way = .reverse ∧ c.net q = .records [])) := by
  unfold asks call
  by_cases hb : badName c
  · simp only [hb, if_true, reduceCtorEq, false_and, exists_false, or_false, Except.error.injEq, exists_eq', true_iff]
    unfold badName at hb
    cases hw : c.way with
    | forward k => simp [hw] at hb
    | reverse => simpa [hw] using hb
  · have hb' : ¬ (c.way = .reverse ∧ c.isAddr c.data = false) := by
      rintro ⟨h1, h2⟩; apply hb; simp [badName, h1, h2]
    simp only [hb, Bool.false_eq_true, if_false, hb', false_or, Option.some.injEq, exists_eq_left']
    cases hq : c.net (inquiry (after system h) c) with
    | records rs =>
      cases hway : c.way with
      | forward k => simp [settle, hway, value, Except.map, pure_ok]
      | reverse =>
        cases rs with
        | nil => simp [settle, hway, value, Except.map, throw_err]
        | cons x xs => simp [settle, hway, value, Except.map, pure_ok]
    | noName => simp [settle]
    | noAnswer => simp [settle]
    | tooLate => simp [settle]
    | failed => simp [settle]

namespace DnsEx

/-- a network whose name servers all know one name -/
def net : Inquiry → Answer := fun q => if q.name = c!"r1.lab" then .records [c!"192.0.2.7", c!"192.0.2.8"] else .noName

def one : Call := ⟨.forward c!"A", c!"r1.lab", 1, .text c!"10.0.0.9, 10.0.0.1", none, net, fun _ => true⟩
def two : Call := ⟨.forward c!"A", c!"r2.lab", 2, .missing, some c!"ips", net, fun _ => true⟩
def ptr : Call := ⟨.reverse, c!"192.0.2.7", 1, .missing, some c!"name", fun _ => .records [c!"r1.lab."], fun _ => true⟩
def late : Call := ⟨.reverse, c!"192.0.2.7", 1, .list [c!"10.0.0.9"], none, fun _ => .tooLate, fun _ => true⟩

/-- two templates of one process: the second lookup names no servers, the first one's are asked, in the order of the texts -/
theorem C158_example :
    asks (after [c!"192.168.1.1"] [one]) two = some ⟨⟨[c!"10.0.0.1", c!"10.0.0.9"], 2, 4⟩, c!"r2.lab", c!"A"⟩ ∧
    asks (after [c!"192.168.1.1"] [one, late]) two = some ⟨⟨[c!"192.168.1.1"], 2, 2⟩, c!"r2.lab", c!"A"⟩ ∧
    asks (after [c!"192.168.1.1"] []) two = some ⟨⟨[c!"192.168.1.1"], 2, 2⟩, c!"r2.lab", c!"A"⟩ ∧
    NamesServers one [c!"10.0.0.9", c!"10.0.0.1"] ∧ NamesNone two ∧ NamesServers late [c!"10.0.0.9"] := by
  refine ⟨by decide, by decide, by decide, Or.inr ⟨[c!"10.0.0.9", c!" 10.0.0.1"], rfl, by decide, by decide, by decide, by decide⟩, Or.inl rfl,
    Or.inl ⟨rfl, by decide⟩⟩

theorem C159_example :
    (call [] (after [] []) one).2 = .ok (.list [.str c!"192.0.2.7", .str c!"192.0.2.8"], .nothing) ∧
    (call [] (after [] [one]) ptr).2 = .ok (.str c!"192.0.2.7", .newField [(.s c!"name", .str c!"r1.lab")]) ∧
    (call [] (after [] []) late).2 = .ok (.str c!"192.0.2.7", .nothing) := by
  refine ⟨by decide, by decide, by decide⟩

end DnsEx
end Props
