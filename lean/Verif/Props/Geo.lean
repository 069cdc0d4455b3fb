import Verif.Spec.Geo
import Verif.Proofs.PyStr
import Verif.Proofs.Save
import Verif.Proofs.Match
/-!
# Lookups in geoip2 databases (C160)
-/

namespace TTP.Geo
open Py Spec

theorem build_iff (resp : Resp) (fs : List (Str × Str)) (d : List (Key × Val)) :
    build resp fs = some d ↔ d.map Prod.fst = fs.map (fun p => Key.s p.1) ∧
      ∀ (i : Nat) (f a : Str), fs[i]? = some (f, a) → ∃ v, resp a = some v ∧ d[i]? = some (.s f, v) := by
  induction fs generalizing d with
  | nil =>
    simp only [build, Option.some.injEq, List.map_nil, List.map_eq_nil_iff, List.getElem?_nil, reduceCtorEq, false_imp_iff, implies_true, and_true]
    exact eq_comm
  | cons p fs ih =>
    obtain ⟨f, a⟩ := p
    simp only [build, Option.bind_eq_bind, Option.bind_eq_some_iff, Option.pure_def, Option.some.injEq]
    constructor
    · rintro ⟨v, hv, d', hd, rfl⟩
      obtain ⟨h1, h2⟩ := (ih d').mp hd
      refine ⟨by simp [h1], fun i g b hi => ?_⟩
      cases i with
      | zero => simp only [List.getElem?_cons_zero, Option.some.injEq, Prod.mk.injEq] at hi; obtain ⟨rfl, rfl⟩ := hi; exact ⟨v, hv, rfl⟩
      | succ i => exact h2 i g b hi
    · rintro ⟨h1, h2⟩
      cases d with
      | nil => simp at h1
      | cons x d =>
        obtain ⟨v, hv, hx⟩ := h2 0 f a rfl
        simp only [List.getElem?_cons_zero, Option.some.injEq] at hx
        subst hx
        refine ⟨v, hv, d, (ih d).mpr ⟨?_, fun i g b hi => h2 (i + 1) g b hi⟩, rfl⟩
        simpa using h1

theorem loadOne_WF (openDb : Str → Option Reader) (ret : Dict Str Node) (e : Str × Str) (h : Dict.WF ret) : Dict.WF (loadOne openDb ret e) := by
  unfold loadOne
  split
  · cases openDb e.2 with
    | none => exact Dict.WF_erase _ _ h
    | some r => exact Dict.WF_set _ _ _ (Dict.WF_erase _ _ h)
  · exact h

theorem loadOne_get_ne (openDb : Str → Option Reader) (ret : Dict Str Node) (e : Str × Str) (h : Dict.WF ret) (q : Str)
    (hq : q ≠ e.1) (hl : q ≠ lower e.1) : Dict.get? (loadOne openDb ret e) q = Dict.get? ret q := by
  unfold loadOne
  split
  · cases openDb e.2 with
    | none => dsimp only; rw [Dict.get?_erase _ _ h, if_neg (Ne.symm hl)]
    | some r => dsimp only; rw [Dict.get?_set_ne _ _ (Ne.symm hq), Dict.get?_erase _ _ h, if_neg (Ne.symm hl)]
  · rfl

theorem has_get {ret : Dict Str Node} {k : Str} : Dict.has ret k = (Dict.get? ret k).isSome := rfl

/-- the databases of a tag: the readers of its entries -/
theorem load_reader (openDb : Str → Option Reader) (tag : Dict Str Str) (ho : OneName tag) (ret : Dict Str Node) (hw : Dict.WF ret)
    (hr : ∀ k r, Dict.get? ret k = some (.reader r) → ∀ e ∈ tag, lower k ≠ lower e.1) (q : Str) (r : Reader) :
    Dict.get? (tag.foldl (loadOne openDb) ret) q = some (.reader r) ↔
      (∃ path, (q, path) ∈ tag ∧ Dict.has ret (lower q) = true ∧ openDb path = some r) ∨ Dict.get? ret q = some (.reader r) := by
  induction tag generalizing ret with
  | nil => simp
  | cons e tag ih =>
    unfold OneName at ho
    rw [List.pairwise_cons] at ho
    have hw' := loadOne_WF openDb ret e hw
    have hne : ∀ p ∈ tag, ∀ x, lower x = lower p.1 → x ≠ e.1 ∧ x ≠ lower e.1 := by
      intro p hp x hx
      refine ⟨?_, ?_⟩ <;> rintro rfl
      · exact ho.1 p hp hx
      · rw [MatchFn.lower_idem] at hx; exact ho.1 p hp hx
    have hone : ∀ x v, Dict.get? (loadOne openDb ret e) x = some (.reader v) →
        Dict.get? ret x = some (.reader v) ∨ (x = e.1 ∧ Dict.has ret (lower e.1) = true ∧ openDb e.2 = some v) := by
      intro x v hx
      unfold loadOne at hx
      split at hx
      · rename_i hh
        cases ho : openDb e.2 with
        | none =>
          rw [ho] at hx; dsimp only at hx
          rw [Dict.get?_erase _ _ hw] at hx
          split at hx
          · cases hx
          · exact Or.inl hx
        | some w =>
          rw [ho] at hx; dsimp only at hx
          rw [Dict.get?_set] at hx
          split at hx
          · rename_i he
            injection hx with hx; injection hx with hx
            exact Or.inr ⟨by simpa [eq_comm] using he, hh, by rw [hx]⟩
          · rw [Dict.get?_erase _ _ hw] at hx
            split at hx
            · cases hx
            · exact Or.inl hx
      · exact Or.inl hx
    rw [List.foldl_cons, ih ho.2 _ hw']
    · constructor
      · rintro (⟨path, hp, hh, hop⟩ | hx)
        · obtain ⟨h1, h2⟩ := hne _ hp (lower q) (by rw [MatchFn.lower_idem])
          rw [has_get, loadOne_get_ne _ _ _ hw _ h1 h2] at hh
          exact Or.inl ⟨path, List.mem_cons_of_mem _ hp, hh, hop⟩
        · rcases hone q r hx with h | ⟨rfl, h1, h2⟩
          · exact Or.inr h
          · exact Or.inl ⟨e.2, List.mem_cons_self, h1, h2⟩
      · rintro (⟨path, hp, hh, hop⟩ | hx)
        · rcases List.mem_cons.mp hp with rfl | hp
          · right
            dsimp only at *
            unfold loadOne
            rw [if_pos hh]; dsimp only
            rw [hop]; exact Dict.get?_set_self _ _ _
          · obtain ⟨h1, h2⟩ := hne _ hp (lower q) (by rw [MatchFn.lower_idem])
            exact Or.inl ⟨path, hp, by rw [has_get, loadOne_get_ne _ _ _ hw _ h1 h2]; exact hh, hop⟩
        · right
          have h := hr q r hx e List.mem_cons_self
          rw [loadOne_get_ne _ _ _ hw]
          · exact hx
          · rintro rfl; exact h rfl
          · rintro rfl; rw [MatchFn.lower_idem] at h; exact h rfl
    · intro k v hk p hp
      rcases hone k v hk with h | ⟨rfl, _, _⟩
      · exact hr k v h p (List.mem_cons_of_mem _ hp)
      · exact ho.1 p hp

/-- what is in a loaded tag that is no reader is `None` -/
theorem load_only (openDb : Str → Option Reader) (tag : Dict Str Str) (ret : Dict Str Node) (hw : Dict.WF ret)
    (hr : ∀ k n, Dict.get? ret k = some n → n = .none ∨ ∃ r, n = .reader r) (q : Str) (n : Node)
    (h : Dict.get? (tag.foldl (loadOne openDb) ret) q = some n) : n = .none ∨ ∃ r, n = .reader r := by
  induction tag generalizing ret with
  | nil => exact hr q n h
  | cons e tag ih =>
    refine ih _ (loadOne_WF openDb ret e hw) (fun k m hk => ?_) h
    unfold loadOne at hk
    split at hk
    · cases ho : openDb e.2 with
      | none =>
        rw [ho] at hk; dsimp only at hk
        rw [Dict.get?_erase _ _ hw] at hk
        split at hk
        · cases hk
        · exact hr k m hk
      | some w =>
        rw [ho] at hk; dsimp only at hk
        rw [Dict.get?_set] at hk
        split at hk
        · injection hk with hk; exact Or.inr ⟨w, hk.symm⟩
        · rw [Dict.get?_erase _ _ hw] at hk
          split at hk
          · cases hk
          · exact hr k m hk
    · exact hr k m hk

theorem start_WF : Dict.WF start := by unfold Dict.WF; decide

theorem start_get (k : Str) (n : Node) (h : Dict.get? start k = some n) : n = .none := by
  have := Dict.mem_of_get? _ _ _ h
  simp only [start, List.mem_cons, Prod.mk.injEq, List.not_mem_nil, or_false] at this
  rcases this with ⟨_, h⟩ | ⟨_, h⟩ | ⟨_, h⟩ <;> exact h

theorem start_has (q : Str) : Dict.has start q = true ↔ ∃ k : DbKind, q = k.name := by
  rw [Dict.has_iff]
  constructor
  · intro h
    have h : q ∈ [c!"city", c!"asn", c!"country"] := h
    simp only [List.mem_cons, List.not_mem_nil, or_false] at h
    rcases h with h | h | h
    · exact ⟨.city, h⟩
    · exact ⟨.asn, h⟩
    · exact ⟨.country, h⟩
  · rintro ⟨k, rfl⟩; cases k <;> decide

theorem kindOf_iff (n : Str) (k : DbKind) : kindOf n = some k ↔ lower n = k.name := by
  have h1 : c!"country" ≠ c!"city" := by decide
  have h2 : c!"country" ≠ c!"asn" := by decide
  have h3 : c!"city" ≠ c!"asn" := by decide
  unfold kindOf
  cases k <;> simp only [DbKind.name]
  · by_cases ha : lower n = c!"country"
    · rw [if_pos ha, ha]; simp
    · rw [if_neg ha]; split <;> simp_all
  · by_cases ha : lower n = c!"country"
    · rw [if_pos ha, ha]; simp
    · rw [if_neg ha]
      by_cases hb : lower n = c!"city"
      · rw [if_pos hb, hb]; simp
      · rw [if_neg hb]; split <;> simp_all
  · by_cases ha : lower n = c!"country"
    · rw [if_pos ha]; simp [ha]
    · rw [if_neg ha]; split <;> (try split) <;> simp_all

end TTP.Geo

namespace Props
open Py TTP TTP.Geo Spec

/-- **C160**, for every lookup tag with geoip2 databases and every address: `geoip_lookup("tag.name")` adds the field with the record of
the address, if the tag names that database (with letters of the same size), its file can be opened and the database knows the
address; in all other cases it leaves the value as it is. It never raises. -/
theorem C160_lookup (openDb : Str → Option Reader) (tag : Dict Str Str) (ho : OneName tag) (lookups : Dict Str Node) (a b tname name : Str)
    (ha : '.' ∉ a) (hb : '.' ∉ b) (hta : strip a = tname) (htb : strip b = name)
    (hl : Dict.get? lookups tname = some (.dict (loadDbs true openDb tag))) (data field : Str) (r : Val × Flag) :
    Geo.lookup lookups data (a ++ '.' :: b) field = .ok r ↔
      (∃ d, GeoFound openDb tag name data d ∧ r = (.str data, .newField [(.s field, .dict d)])) ∨
      ((¬ ∃ d, GeoFound openDb tag name data d) ∧ r = (.str data, .nothing)) := by
  have hload : ∀ q rd, Dict.get? (loadDbs true openDb tag) q = some (.reader rd) ↔ ∃ k, Opened openDb tag k q rd := by
    intro q rd
    rw [loadDbs, if_pos rfl, load_reader openDb tag ho start start_WF (fun k v h => by have := start_get k _ h; cases this)]
    constructor
    · rintro (⟨path, hp, hh, hop⟩ | h)
      · obtain ⟨k, hk⟩ := (start_has _).mp hh
        exact ⟨k, path, hp, hk, hop⟩
      · have := start_get q _ h; cases this
    · rintro ⟨k, path, hp, hk, hop⟩
      exact Or.inl ⟨path, hp, (start_has _).mpr ⟨k, hk⟩, hop⟩
  have hfound : ∀ d, GeoFound openDb tag name data d ↔
      ∃ rd k, Dict.get? (loadDbs true openDb tag) name = some (.reader rd) ∧ kindOf name = some k ∧
        (rd k data).bind (fun resp => build resp (fields k)) = some d := by
    intro d
    constructor
    · rintro ⟨k, rd, resp, hop, hrd, hg⟩
      obtain ⟨path, _, hk, _⟩ := id hop
      exact ⟨rd, k, (hload _ _).mpr ⟨k, hop⟩, (kindOf_iff _ _).mpr hk, by rw [hrd]; exact (build_iff _ _ _).mpr hg⟩
    · rintro ⟨rd, k, hg, hk, hbd⟩
      obtain ⟨k', hop⟩ := (hload _ _).mp hg
      obtain ⟨path, h1, hk', h2⟩ := id hop
      have : k' = k := by
        have := (kindOf_iff name k').mpr hk'
        rw [hk] at this; injection this with this; exact this.symm
      subst this
      obtain ⟨resp, hr, hb⟩ := Option.bind_eq_some_iff.mp hbd
      exact ⟨k', rd, resp, hop, hr, (build_iff _ _ _).mp hb⟩
  have hpath : (splitC '.' (a ++ '.' :: b)).map strip = [tname, name] := by
    rw [splitC_append _ _ ha, splitC_self _ _ hb]; simp [hta, htb]
  have hval : Geo.lookup lookups data (a ++ '.' :: b) field =
      .ok (match Dict.get? (loadDbs true openDb tag) name with
        | some (.reader rd) => answer data field ((kindOf name).bind (fun k => (rd k data).bind (fun resp => build resp (fields k))))
        | _ => (.str data, .nothing)) := by
    unfold Geo.lookup
    dsimp only
    rw [hpath]
    simp only [walk, getNode, hl, pure_ok, ok_bind, Option.getD_some]
    cases hg : Dict.get? (loadDbs true openDb tag) name with
    | none => rfl
    | some n =>
      have := load_only openDb tag start start_WF (fun k n h => Or.inl (start_get k n h)) name n (by
        rw [loadDbs, if_pos rfl] at hg; exact hg)
      rcases this with rfl | ⟨rd, rfl⟩
      · rfl
      · rfl
  rw [hval, Except.ok.injEq]
  by_cases hex : ∃ d, GeoFound openDb tag name data d
  · obtain ⟨d, hd⟩ := hex
    obtain ⟨rd, k, h1, h2, h3⟩ := (hfound d).mp hd
    have hu : ∀ d', GeoFound openDb tag name data d' → d' = d := by
      intro d' hd'
      obtain ⟨rd', k', g1, g2, g3⟩ := (hfound d').mp hd'
      rw [h1] at g1; injection g1 with g1; injection g1 with g1; subst g1
      rw [h2] at g2; injection g2 with g2; subst g2
      rw [h3] at g3; injection g3 with g3; exact g3.symm
    rw [h1, h2]
    simp only [Option.bind_some, h3, answer]
    constructor
    · intro h; exact Or.inl ⟨d, hd, h.symm⟩
    · rintro (⟨d', hd', rfl⟩ | ⟨hn, _⟩)
      · rw [hu d' hd']
      · exact absurd ⟨d, hd⟩ hn
  · have hnone : (match Dict.get? (loadDbs true openDb tag) name with
        | some (.reader rd) => answer data field ((kindOf name).bind (fun k => (rd k data).bind (fun resp => build resp (fields k))))
        | _ => (.str data, .nothing)) = (Val.str data, Flag.nothing) := by
      cases hg : Dict.get? (loadDbs true openDb tag) name with
      | none => rfl
      | some n =>
        cases n with
        | reader rd =>
          dsimp only
          cases hk : kindOf name with
          | none => rfl
          | some k =>
            simp only [Option.bind_some]
            cases hd : (rd k data).bind (fun resp => build resp (fields k)) with
            | none => rfl
            | some d => exact absurd ⟨d, (hfound d).mpr ⟨rd, k, hg, hk, hd⟩⟩ hex
        | none => rfl
        | dict d => rfl
        | other v => rfl
    rw [hnone]
    constructor
    · intro h; exact Or.inr ⟨hex, h.symm⟩
    · rintro (⟨d, hd, _⟩ | ⟨_, h⟩)
      · exact absurd ⟨d, hd⟩ hex
      · exact h.symm

/-- **C160**: without the library nothing is found, and nothing raises -/
theorem C160_no_library (openDb : Str → Option Reader) (tag : Dict Str Str) (lookups : Dict Str Node) (a b tname : Str)
    (ha : '.' ∉ a) (hb : '.' ∉ b) (hta : strip a = tname)
    (hl : Dict.get? lookups tname = some (.dict (loadDbs false openDb tag))) (data field : Str) :
    Geo.lookup lookups data (a ++ '.' :: b) field = .ok (.str data, .nothing) := by
  have hpath : (splitC '.' (a ++ '.' :: b)).map strip = [tname, strip b] := by
    rw [splitC_append _ _ ha, splitC_self _ _ hb]; simp [hta]
  unfold Geo.lookup
  dsimp only
  rw [hpath]
  simp only [walk, getNode, hl, pure_ok, ok_bind, Option.getD_some, loadDbs, Bool.false_eq_true, if_false]
  cases hg : Dict.get? start (strip b) with
  | none => rfl
  | some n => rw [start_get _ _ hg]; rfl

namespace GeoEx

/-- a database that knows one address -/
def asnDb : Reader := fun k ip =>
  if k = .asn ∧ ip = c!"123.209.0.1" then
    some (fun a => if a = c!"autonomous_system_number" then some (.int 1221) else if a = c!"autonomous_system_organization" then some (.str c!"Telstra")
      else if a = c!"network.with_prefixlen" then some (.str c!"123.209.0.0/16") else none)
  else none

def files : Str → Option Reader := fun p => if p = c!"asn.mmdb" then some asnDb else none

def tag : Dict Str Str := [(c!"citY", c!"city.mmdb"), (c!"AsN", c!"asn.mmdb")]

def tables : Dict Str Node := [(c!"geo", .dict (loadDbs true files tag))]

def rec1221 : List (Key × Val) :=
  [(.s c!"ASN", .int 1221), (.s c!"organization", .str c!"Telstra"), (.s c!"network", .str c!"123.209.0.0/16")]

/-- the record is found under the name of the tag; under the name in small letters it is not, although kinds are told apart without
regard to the size of letters -/
theorem C160_example :
    Geo.lookup tables c!"123.209.0.1" c!"geo.AsN" c!"asn_data" = .ok (.str c!"123.209.0.1", .newField [(.s c!"asn_data", .dict rec1221)]) ∧
    Geo.lookup tables c!"123.209.0.1" c!"geo.asn" c!"asn_data" = .ok (.str c!"123.209.0.1", .nothing) ∧
    OneName tag ∧ GeoFound files tag c!"AsN" c!"123.209.0.1" rec1221 := by
  refine ⟨rfl, rfl, by unfold OneName; decide, .asn, asnDb, _, ⟨c!"asn.mmdb", by decide, by decide, rfl⟩, rfl, ?_⟩
  exact (build_iff _ _ _).mp rfl

/-- two names for one kind: the second one takes the first one away -/
theorem C160_twice :
    Geo.lookup [(c!"geo", .dict (loadDbs true files [(c!"asn", c!"asn.mmdb"), (c!"ASN", c!"other.mmdb")]))] c!"123.209.0.1" c!"geo.asn" c!"x" =
      .ok (.str c!"123.209.0.1", .nothing) ∧
    Geo.lookup [(c!"geo", .dict (loadDbs true files [(c!"asn", c!"asn.mmdb")]))] c!"123.209.0.1" c!"geo.asn" c!"x" =
      .ok (.str c!"123.209.0.1", .newField [(.s c!"x", .dict rec1221)]) := ⟨rfl, rfl⟩

end GeoEx
end Props
