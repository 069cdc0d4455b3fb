import Verif.Props.Match
import Verif.Proofs.Ip
/-!
# C123 - C127: addresses, numbers with a fraction, macros of match variables

What an address text is, is defined in Verif/Spec/Ip.lean. Version 6 is a parameter of the model (`W.ip6`).
-/

namespace Props
open Py Spec TTP TTP.MatchFn

theorem builtin_error (W : World) (name : Str) (args : List Val) (env : Env) (data : Val) (h1 : name ≠ c!"count")
    (h2 : name ≠ c!"record") (h3 : pureNames.contains name = true) (h4 : lookupElsewhere (fn name args) = false) (e : Err) (he : e ≠ .keyError)
    (h : callPure W (fn name args) env data = .error e) : builtin W (fn name args) env data = .error e := by
  have h5 : name ≠ c!"gpvlookup" := by intro e; rw [e] at h3; revert h3; decide
  have hc : call W (fn name args) env data = .error e := by
    unfold call
    have e1 : (fn name args).name = name := rfl
    simp only [e1, h1, h2, h3, h4, h5, if_false, Bool.not_false, Bool.and_self, if_true, h]
    rfl
  unfold builtin
  rw [hc]
  cases e <;> first | rfl | exact absurd rfl he

/-! ## C123 -/

/-- the texts among the arguments -/
theorem mem_textsOf (args : List Val) (s : Str) : s ∈ textsOf args ↔ Val.str s ∈ args := by
  unfold textsOf
  rw [List.mem_filterMap]
  constructor
  · rintro ⟨v, hv, h⟩
    split at h
    · injection h with h; subst h; exact hv
    · cases h
  · intro h; exact ⟨_, h, rfl⟩

theorem isIp_call (W : World) (env : Env) (args : List Val) (data : Val) :
    builtin W (fn c!"is_ip" args) env data = .ok (env, data, chk (isIp W args data)) :=
  builtin_named W _ _ env _ (by decide) (by decide) (by decide) rfl (data, chk (isIp W args data)) rfl

/-- C123. `is_ip` with `"ipv4"` accepts a text iff it is an address of version 4, or one with a mask (prefix length, netmask or host mask) after a
slash or a space; the value is kept. -/
theorem C123_is_ip_v4 (W : World) (env : Env) (args : List Val) (ha : Val.str c!"ipv4" ∈ args) (s : Str) :
    ∃ b : Bool, builtin W (fn c!"is_ip" args) env (.str s) = .ok (env, .str s, if b then .yes else .no) ∧
      (b = true ↔ (∃ x, V4 s x) ∨ ∃ x p, V4With ['/', ' '] s x p) := by
  refine ⟨_, isIp_call W env args (.str s), ?_⟩
  unfold isIp
  rw [Option.isSome_iff_exists]
  constructor
  · rintro ⟨d, h⟩
    rcases (Ip.toIp_4 W.ip6 _ s d ((mem_textsOf _ _).2 ha)).1 h with ⟨x, h, _⟩ | ⟨x, p, h, _⟩
    · exact Or.inl ⟨x, h⟩
    · exact Or.inr ⟨x, p, h⟩
  · rintro (⟨x, h⟩ | ⟨x, p, h⟩)
    · exact ⟨_, (Ip.toIp_4 W.ip6 _ s _ ((mem_textsOf _ _).2 ha)).2 (Or.inl ⟨x, h, rfl⟩)⟩
    · exact ⟨_, (Ip.toIp_4 W.ip6 _ s _ ((mem_textsOf _ _).2 ha)).2 (Or.inr ⟨x, p, h, rfl⟩)⟩

/-- C123. With `"ipv6"` (and not `"ipv4"`): iff the text is an address of version 6, or one with a prefix length after a slash. -/
theorem C123_is_ip_v6 (W : World) (env : Env) (args : List Val) (hn : Val.str c!"ipv4" ∉ args) (ha : Val.str c!"ipv6" ∈ args) (s : Str) :
    ∃ b : Bool, builtin W (fn c!"is_ip" args) env (.str s) = .ok (env, .str s, if b then .yes else .no) ∧
      (b = true ↔ ('/' ∉ s ∧ ∃ x, W.ip6 s = some x) ∨ ∃ x p, V6With W.ip6 ['/'] s x p) := by
  refine ⟨_, isIp_call W env args (.str s), ?_⟩
  have hn' : c!"ipv4" ∉ textsOf args := fun h => hn ((mem_textsOf _ _).1 h)
  have key := fun d => Ip.toIp_6 W.ip6 _ s d hn' ((mem_textsOf _ _).2 ha)
  unfold isIp
  rw [Option.isSome_iff_exists]
  constructor
  · rintro ⟨d, h⟩
    rcases (key d).1 h with ⟨x, h0, h, _⟩ | ⟨x, p, h, _⟩
    · exact Or.inl ⟨h0 _ (by simp), x, h⟩
    · exact Or.inr ⟨x, p, h⟩
  · rintro (⟨h0, x, h⟩ | ⟨x, p, h⟩)
    · exact ⟨_, (key _).2 (Or.inl ⟨x, by simpa using h0, h, rfl⟩)⟩
    · exact ⟨_, (key _).2 (Or.inr ⟨x, p, h, rfl⟩)⟩

/-- C123. With neither: iff the text stands for addresses of one of the versions. -/
theorem C123_is_ip_any (W : World) (env : Env) (args : List Val) (hn : Val.str c!"ipv4" ∉ args) (hn6 : Val.str c!"ipv6" ∉ args) (s : Str) :
    ∃ b : Bool, builtin W (fn c!"is_ip" args) env (.str s) = .ok (env, .str s, if b then .yes else .no) ∧
      (b = true ↔ ∃ B, Addresses W.ip6 ['/', ' '] s B) := by
  refine ⟨_, isIp_call W env args (.str s), ?_⟩
  have hn' : c!"ipv4" ∉ textsOf args := fun h => hn ((mem_textsOf _ _).1 h)
  have hn6' : c!"ipv6" ∉ textsOf args := fun h => hn6 ((mem_textsOf _ _).1 h)
  have key := fun d => Ip.toIp_any W.ip6 _ s d hn' hn6'
  unfold isIp
  rw [Option.isSome_iff_exists]
  constructor
  · rintro ⟨d, h⟩
    rcases (key d).1 h with h | ⟨_, h⟩
    · exact ⟨_, Ip.Means4_block _ _ _ h⟩
    · exact ⟨_, Ip.Means6_block _ _ _ _ h⟩
  · rintro ⟨B, h⟩
    have go : ∀ d, Ip.Means4 s d ∨ Ip.Means6 W.ip6 ['/', ' '] s d → ∃ d, Ip.toIp W.ip6 (textsOf args) s = some d := by
      intro d hd
      by_cases h4 : ∃ e, Ip.Means4 s e
      · obtain ⟨e, h4⟩ := h4
        exact ⟨e, (key e).2 (Or.inl h4)⟩
      · rcases hd with hd | hd
        · exact absurd ⟨d, hd⟩ h4
        · exact ⟨d, (key d).2 (Or.inr ⟨fun e he => h4 ⟨e, he⟩, hd⟩)⟩
    cases h with
    | v4 x h => exact go _ (Or.inl (Or.inl ⟨x, h, rfl⟩))
    | v4m x p h => exact go _ (Or.inl (Or.inr ⟨x, p, h, rfl⟩))
    | v6 x h h' => exact go _ (Or.inr (Or.inl ⟨x, h, h', rfl⟩))
    | v6m x p h => exact go _ (Or.inr (Or.inr ⟨x, p, h, rfl⟩))

/-- C123. A value that is no text is rejected, not reported as an error. -/
theorem C123_is_ip_not_text (W : World) (env : Env) (args : List Val) (v : Val) (h : ∀ s, v ≠ .str s) :
    builtin W (fn c!"is_ip" args) env v = .ok (env, v, .no) := by
  have : isIp W args v = false := by
    cases v with
    | str s => exact absurd rfl (h s)
    | _ => rfl
  rw [isIp_call, this]; rfl

/-- a world that knows the addresses `::1` and `::2` -/
def ipWorld : World := { W1 with ip6 := fun s => if s = c!"::1" then some 1 else if s = c!"::2" then some 2 else none }

theorem V4_10 : V4 c!"10.0.0.1" 167772161 := ⟨by decide, by decide +kernel⟩

example : (∃ x p, V4With ['/', ' '] c!"10.0.0.1 255.255.255.0" x p) ∧ (∃ x p, V4With ['/', ' '] c!"10.0.0.1/24" x p) ∧
    (∃ x p, V4With ['/', ' '] c!"10.0.0.1/0.0.0.255" x p) ∧ ¬ ∃ x, V4 c!"10.0.0.300" x := by
  refine ⟨⟨_, 24, c!"10.0.0.1", c!"255.255.255.0", ' ', by simp, rfl, V4_10, by decide, Or.inr (Or.inl ⟨by decide, by decide +kernel⟩)⟩,
    ⟨_, 24, c!"10.0.0.1", c!"24", '/', by simp, rfl, V4_10, by decide, Or.inl ⟨by simp, rfl, rfl⟩⟩,
    ⟨_, 24, c!"10.0.0.1", c!"0.0.0.255", '/', by simp, rfl, V4_10, by decide, Or.inr (Or.inr ⟨by decide, by decide, by decide, by decide +kernel⟩)⟩, ?_⟩
  rintro ⟨x, h⟩
  rw [← Ip.v4_iff] at h
  have : Ip.v4? c!"10.0.0.300" = none := by decide +kernel
  rw [this] at h; cases h

theorem ipWorld_reads : Reads6 ipWorld.ip6 := by
  refine ⟨?_, ?_⟩
  · intro s x h
    unfold ipWorld at h
    simp only at h
    split at h
    · injection h with h; subst h; decide
    · split at h
      · injection h with h; subst h; decide
      · cases h
  · intro s x h
    have := Ip.V4_chars s x h
    unfold ipWorld
    simp only
    split
    · rename_i e; subst e
      have := this ':' (by simp); revert this; decide
    · split
      · rename_i e; subst e
        have := this ':' (by simp); revert this; decide
      · rfl

example : Addresses ipWorld.ip6 ['/', ' '] c!"::1/64" ⟨6, 1, 64⟩ :=
  .v6m 1 64 ⟨c!"::1", c!"64", '/', by simp, rfl, by decide, rfl, ⟨by simp, rfl, rfl⟩, by decide⟩

/-! ## C124 -/

/-- a prefix argument: the value of the variable of that name, or the text itself -/
def PrefixArg (env : Env) (arg t : Str) : Prop := Dict.get? env.vars arg = some (.str t) ∨ (Dict.get? env.vars arg = none ∧ arg = t)

theorem PrefixArg_eq (env : Env) (arg t : Str) (h : PrefixArg env arg t) : varOr env.vars (.str arg) = .str t := by
  unfold varOr
  dsimp only
  rcases h with h | ⟨h, rfl⟩
  · rw [h]; rfl
  · rw [h]; rfl

theorem cidr_call (W : World) (env : Env) (arg : Str) (data : Val) :
    callPure W (fn c!"cidr_match" [.str arg]) env data = (do pure (data, ← cidrFn W env.vars data (.str arg))) := rfl

/-- C124. `cidr_match`: a value that stands for the addresses `B` is accepted iff one of them is among those of the prefix (the value of the
variable of that name if there is one), a network without host bits. The value is kept. -/
theorem C124_cidr_match (W : World) (hr : Reads6 W.ip6) (env : Env) (s arg t : Str) (B N : Block) (hs : Addresses W.ip6 ['/', ' '] s B)
    (ha : PrefixArg env arg t) (ht : Addresses W.ip6 ['/'] t N) (hh : 2 ^ N.k ∣ N.base) :
    ∃ b : Bool, builtin W (fn c!"cidr_match" [.str arg]) env (.str s) = .ok (env, .str s, if b then .yes else .no) ∧
      (b = true ↔ ∃ v x, x < 2 ^ (if v = 4 then 32 else 128) ∧ B.Mem v x ∧ N.Mem v x) := by
  obtain ⟨d, hd, hb, _⟩ := Ip.toIp_block W.ip6 hr s B hs
  obtain ⟨p, hp, hk, hx, hn⟩ := Ip.toNet_block W.ip6 hr t N ht
  rw [if_pos hh] at hn
  obtain ⟨r, h1, h2⟩ := Ip.cidr_iff W.ip6 hr s B d hd hb ⟨N.version, N.base, p⟩ ⟨hp, hx, by rw [← hk]; exact hh⟩
  refine ⟨r, ?_, ?_⟩
  · refine builtin_named W _ _ env _ (by decide) (by decide) (by decide) rfl (.str s, chk r) ?_
    rw [cidr_call]
    unfold cidrFn
    simp only [hd, PrefixArg_eq env arg t ha, netArg, hn]
    simp only [pure, Except.pure, bind, Except.bind, h1]
  · rw [h2]
    simp only [Net.Network.block, ← hk]
    rfl

/-- C124. A value that is no address is kept, and neither accepted nor rejected - the match stays in the results. -/
theorem C124_not_an_address (W : World) (env : Env) (s arg : Str) (hs : ¬ ∃ B, Addresses W.ip6 ['/', ' '] s B) :
    builtin W (fn c!"cidr_match" [.str arg]) env (.str s) = .ok (env, .str s, .nothing) := by
  refine builtin_named W _ _ env _ (by decide) (by decide) (by decide) rfl (.str s, .nothing) ?_
  rw [cidr_call]
  unfold cidrFn
  simp only [Ip.toIp_none W.ip6 s hs]
  rfl

/-- C124. A prefix that is no network, or has host bits, is an error (`ValueError`, which ends the parsing) for every value that is an address. -/
theorem C124_bad_prefix (W : World) (hr : Reads6 W.ip6) (env : Env) (s arg t : Str) (B : Block) (hs : Addresses W.ip6 ['/', ' '] s B)
    (ha : PrefixArg env arg t) (ht : ∀ N, Addresses W.ip6 ['/'] t N → ¬ 2 ^ N.k ∣ N.base) :
    builtin W (fn c!"cidr_match" [.str arg]) env (.str s) = .error .valueError := by
  obtain ⟨d, hd, hb, _⟩ := Ip.toIp_block W.ip6 hr s B hs
  refine builtin_error W _ _ env _ (by decide) (by decide) (by decide) rfl .valueError (by decide) ?_
  rw [cidr_call]
  have hn : Ip.toNet W.ip6 t = none := by
    by_cases h : ∃ N, Addresses W.ip6 ['/'] t N
    · obtain ⟨N, h⟩ := h
      obtain ⟨p, _, _, _, hn⟩ := Ip.toNet_block W.ip6 hr t N h
      rw [hn, if_neg (ht N h)]
    · exact Ip.toNet_none W.ip6 t h
  unfold cidrFn
  simp only [hd, PrefixArg_eq env arg t ha, netArg, hn]
  rfl

/-- 10.0.0.1/24 has addresses in common with 10.0.0.0/8, given as a variable -/
example : builtin ipWorld (fn c!"cidr_match" [.str c!"lan"]) ⟨[(c!"lan", .str c!"10.0.0.0/8")], []⟩ (.str c!"10.0.0.1/24") =
    .ok (⟨[(c!"lan", .str c!"10.0.0.0/8")], []⟩, .str c!"10.0.0.1/24", .yes) := by
  obtain ⟨b, h1, h2⟩ := C124_cidr_match ipWorld ipWorld_reads ⟨[(c!"lan", .str c!"10.0.0.0/8")], []⟩ c!"10.0.0.1/24" c!"lan" c!"10.0.0.0/8"
    ⟨4, 167772161, 32 - 24⟩ ⟨4, 167772160, 32 - 8⟩
    (.v4m _ 24 ⟨c!"10.0.0.1", c!"24", '/', by simp, rfl, V4_10, by decide, Or.inl ⟨by simp, rfl, rfl⟩⟩) (Or.inl rfl)
    (.v4m _ 8 ⟨c!"10.0.0.0", c!"8", '/', by simp, rfl, ⟨by decide, by decide +kernel⟩, by decide, Or.inl ⟨by simp, rfl, rfl⟩⟩) (by decide)
  have : b = true := h2.2 ⟨4, 167772161, by decide, ⟨rfl, rfl⟩, rfl, by decide⟩
  rw [h1, this]; rfl

/-- a prefix with host bits -/
example : builtin ipWorld (fn c!"cidr_match" [.str c!"10.0.0.1/24"]) ⟨[], []⟩ (.str c!"10.0.0.1") = .error .valueError := by
  refine C124_bad_prefix ipWorld ipWorld_reads ⟨[], []⟩ c!"10.0.0.1" c!"10.0.0.1/24" c!"10.0.0.1/24" _ (.v4 _ V4_10) (Or.inr ⟨rfl, rfl⟩) ?_
  intro N h
  obtain ⟨p, _, _, _, hn⟩ := Ip.toNet_block ipWorld.ip6 ipWorld_reads _ N h
  have : Ip.toNet ipWorld.ip6 c!"10.0.0.1/24" = none := by decide +kernel
  intro hd
  rw [if_pos hd, this] at hn
  cases hn

/-! ## C125 -/

theorem info_call (W : World) (env : Env) (args : List Val) (data : Val) :
    builtin W (fn c!"ip_info" args) env data = .ok (env, ipInfo W args data, .nothing) :=
  builtin_named W _ _ env _ (by decide) (by decide) (by decide) rfl (ipInfo W args data, .nothing) rfl

/-- C125. `ip_info` of an address of version 4, without a kind or with `"ipv4"`: the value becomes the facts of the address. -/
theorem C125_ip_info_address (W : World) (env : Env) (args : List Val) (ha : args = [] ∨ Val.str c!"ipv4" ∈ args) (s : Str) (x : Nat) (h : V4 s x) :
    builtin W (fn c!"ip_info" args) env (.str s) = .ok (env, .dict (v4Facts W.priv x), .nothing) := by
  have ht : Ip.toIp W.ip6 (textsOf args) s = some (.addr 4 x) := by
    rcases ha with rfl | ha
    · exact (Ip.toIp_any W.ip6 _ s _ (by simp [textsOf]) (by simp [textsOf])).2 (Or.inl (Or.inl ⟨x, h, rfl⟩))
    · exact (Ip.toIp_4 W.ip6 _ s _ ((mem_textsOf _ _).2 ha)).2 (Or.inl ⟨x, h, rfl⟩)
  rw [info_call]
  unfold ipInfo
  simp only [ht, Ip.info, if_true]
  rw [Ip.infoAddr4_eq W.priv x h.1]

/-- C125. With a mask: the facts of the address and of its network. -/
theorem C125_ip_info_interface (W : World) (env : Env) (args : List Val) (ha : args = [] ∨ Val.str c!"ipv4" ∈ args) (s : Str) (x p : Nat)
    (h : V4With ['/', ' '] s x p) : builtin W (fn c!"ip_info" args) env (.str s) = .ok (env, .dict (v4NetFacts W.priv x p), .nothing) := by
  have ht : Ip.toIp W.ip6 (textsOf args) s = some (.iface 4 x p) := by
    rcases ha with rfl | ha
    · exact (Ip.toIp_any W.ip6 _ s _ (by simp [textsOf]) (by simp [textsOf])).2 (Or.inl (Or.inr ⟨x, p, h, rfl⟩))
    · exact (Ip.toIp_4 W.ip6 _ s _ ((mem_textsOf _ _).2 ha)).2 (Or.inr ⟨x, p, h, rfl⟩)
  obtain ⟨_, _, _, _, _, h1, h2⟩ := h
  rw [info_call]
  unfold ipInfo
  simp only [ht, Ip.info, if_true]
  rw [Ip.infoIface4_eq W.priv x p h1.1 h2.1]

/-- C125. A text that is no address is kept as it is. -/
theorem C125_ip_info_other (W : World) (env : Env) (s : Str) (hs : ¬ ∃ B, Addresses W.ip6 ['/', ' '] s B) :
    builtin W (fn c!"ip_info" []) env (.str s) = .ok (env, .str s, .nothing) := by
  rw [info_call]
  unfold ipInfo
  have : textsOf [] = [] := rfl
  simp only [this, Ip.toIp_none W.ip6 s hs]

/-- C125. A consequence that may surprise: the number of hosts is the number of addresses minus two, for a mask of 32 bits -1. -/
theorem C125_hosts_negative (W : World) (env : Env) (s : Str) (x : Nat) (h : V4With ['/', ' '] s x 32) :
    ∃ d, builtin W (fn c!"ip_info" []) env (.str s) = .ok (env, .dict d, .nothing) ∧ Dict.get? d (.s c!"hosts") = some (.int (-1)) :=
  ⟨_, C125_ip_info_interface W env [] (Or.inl rfl) s x 32 h, rfl⟩

example (W : World) (env : Env) : ∃ d, builtin W (fn c!"ip_info" []) env (.str c!"10.0.0.1/24") = .ok (env, .dict d, .nothing) ∧
    Dict.get? d (.s c!"network") = some (.str c!"10.0.0.0/24") ∧ Dict.get? d (.s c!"broadcast_address") = some (.str c!"10.0.0.255") ∧
    Dict.get? d (.s c!"hosts") = some (.int 254) := by
  refine ⟨_, C125_ip_info_interface W env [] (Or.inl rfl) c!"10.0.0.1/24" 167772161 24
    ⟨c!"10.0.0.1", c!"24", '/', by simp, rfl, V4_10, by decide, Or.inl ⟨by simp, rfl, rfl⟩⟩, ?_, ?_, ?_⟩
  · show some (Val.str (dotted (octets (167772161 - 167772161 % 2 ^ (32 - 24))) ++ '/' :: natStr 24)) = _
    decide +kernel
  · show some (Val.str (dotted (octets (167772161 - 167772161 % 2 ^ (32 - 24) + (2 ^ (32 - 24) - 1))))) = _
    decide +kernel
  · rfl

/-! ## C126 -/

theorem float_call (W : World) (env : Env) (data : Val) :
    callPure W (fn c!"to_float" []) env data = (do pure (← toFloat W data, .nothing)) := rfl

/-- C126. `to_float` of a text that is a number gives the number; a list, a dictionary or nothing is kept. -/
theorem C126_to_float_partial (W : World) (env : Env) :
    (∀ s t, W.float s = some t → builtin W (fn c!"to_float" []) env (.str s) = .ok (env, .flt t, .nothing)) ∧
    (∀ v : Val, (v = .none ∨ (∃ l, v = .list l) ∨ ∃ d, v = .dict d) → builtin W (fn c!"to_float" []) env v = .ok (env, v, .nothing)) := by
  constructor
  · intro s t h
    refine builtin_named W _ _ env _ (by decide) (by decide) (by decide) rfl (.flt t, .nothing) ?_
    rw [float_call]
    unfold toFloat
    simp only [h]; rfl
  · rintro v (rfl | ⟨l, rfl⟩ | ⟨d, rfl⟩)
    · exact builtin_named W _ _ env _ (by decide) (by decide) (by decide) rfl (.none, .nothing) rfl
    · exact builtin_named W _ _ env _ (by decide) (by decide) (by decide) rfl (.list l, .nothing) rfl
    · exact builtin_named W _ _ env _ (by decide) (by decide) (by decide) rfl (.dict d, .nothing) rfl

/-- C126. `to_float` of the boolean values gives 1.0 and 0.0, of a whole number the float that Python makes of its digits. -/
theorem C126_to_float_numbers (W : World) (env : Env) :
    builtin W (fn c!"to_float" []) env (.bool true) = .ok (env, .flt c!"1.0", .nothing) ∧
    builtin W (fn c!"to_float" []) env (.bool false) = .ok (env, .flt c!"0.0", .nothing) ∧
    ∀ n t, W.float (intStr n) = some t → builtin W (fn c!"to_float" []) env (.int n) = .ok (env, .flt t, .nothing) := by
  refine ⟨?_, ?_, ?_⟩
  · exact builtin_named W _ _ env _ (by decide) (by decide) (by decide) rfl (.flt c!"1.0", .nothing) rfl
  · exact builtin_named W _ _ env _ (by decide) (by decide) (by decide) rfl (.flt c!"0.0", .nothing) rfl
  · intro n t h
    refine builtin_named W _ _ env _ (by decide) (by decide) (by decide) rfl (.flt t, .nothing) ?_
    rw [float_call]
    unfold toFloat
    simp only [h]; rfl

/-- C126 is false of the code for texts that are no numbers: where `to_int` keeps the text, `to_float` raises `ValueError`, which ends the
parsing. -/
theorem C126_to_float_raises (W : World) (env : Env) (s : Str) (h : W.float s = none) (fs : List FnCall) (flags : Option (Dict Key Val)) :
    runMatchFns (builtin W) (fn c!"to_float" [] :: fs) env (.str s) flags = .error .valueError := by
  have hb : builtin W (fn c!"to_float" []) env (.str s) = .error .valueError := by
    refine builtin_error W _ _ env _ (by decide) (by decide) (by decide) rfl .valueError (by decide) ?_
    rw [float_call]
    unfold toFloat
    simp only [h]; rfl
  rw [runMatchFns, hb]; rfl

example (env : Env) : runMatchFns (builtin ipWorld) [fn c!"to_float" []] env (.str c!"n/a") none = .error .valueError :=
  C126_to_float_raises ipWorld env _ rfl [] none

/-- C126. `print` keeps the value. -/
theorem C126_print (W : World) (env : Env) (v : Val) : builtin W (fn c!"print" []) env v = .ok (env, v, .nothing) :=
  builtin_named W _ _ env _ (by decide) (by decide) (by decide) rfl (v, .nothing) rfl

/-! ## C127 -/

theorem macro_call (W : World) (env : Env) (name : Str) (m : Val → PyM MRes) (data : Val) (r : MRes)
    (hm : Dict.get? W.macros name = some m) (hk : m data = .ok r) :
    builtin W (fn c!"macro" [.str name]) env data = .ok (env, (macroRes data r).1, (macroRes data r).2) := by
  refine builtin_named W _ _ env _ (by decide) (by decide) (by decide) rfl (macroRes data r) ?_
  show (match Dict.get? W.macros name with
    | some m => do
      let r := macroRes data (← m data)
      pure r
    | none => pure (data, .nothing) : PyM (Val × Flag)) = _
  rw [hm]
  simp only [hk]
  rfl

/-- C127. What a macro of a match variable returns: `True` keeps the match, `False` discards it, `None` changes nothing, a pair of a value and
a dictionary replaces the value and adds the entries of the dictionary to the match, any other value replaces the value. -/
theorem C127_macro_results (W : World) (env : Env) (name : Str) (m : Val → PyM MRes) (data : Val) (hm : Dict.get? W.macros name = some m) :
    (m data = .ok (.val (.bool true)) → builtin W (fn c!"macro" [.str name]) env data = .ok (env, data, .yes)) ∧
    (m data = .ok (.val (.bool false)) → builtin W (fn c!"macro" [.str name]) env data = .ok (env, data, .no)) ∧
    (m data = .ok (.val .none) → builtin W (fn c!"macro" [.str name]) env data = .ok (env, data, .nothing)) ∧
    (∀ v d, m data = .ok (.tup [v, .dict d]) → builtin W (fn c!"macro" [.str name]) env data = .ok (env, v, .newField d)) ∧
    (∀ v, v ≠ .none → (∀ b, v ≠ .bool b) → m data = .ok (.val v) → builtin W (fn c!"macro" [.str name]) env data = .ok (env, v, .nothing)) := by
  refine ⟨fun h => macro_call W env name m data _ hm h, fun h => macro_call W env name m data _ hm h,
    fun h => macro_call W env name m data _ hm h, fun v d h => macro_call W env name m data _ hm h, ?_⟩
  intro v h1 h2 h
  have := macro_call W env name m data _ hm h
  rw [this]
  cases v with
  | none => exact absurd rfl h1
  | bool b => exact absurd rfl (h2 b)
  | _ => rfl

/-- C127. The name of a macro that was not defined is no error: the match is kept. -/
theorem C127_no_such_macro (W : World) (env : Env) (name : Str) (data : Val) (hm : Dict.get? W.macros name = none) :
    builtin W (fn c!"macro" [.str name]) env data = .ok (env, data, .nothing) := by
  refine builtin_named W _ _ env _ (by decide) (by decide) (by decide) rfl (data, .nothing) ?_
  show (match Dict.get? W.macros name with
    | some m => do
      let r := macroRes data (← m data)
      pure r
    | none => pure (data, .nothing) : PyM (Val × Flag)) = _
  rw [hm]; rfl

/-- a macro that rejects the text "down", and makes "up" a pair -/
example (env : Env) : ∃ W : World,
    builtin W (fn c!"macro" [.str c!"m"]) env (.str c!"down") = .ok (env, .str c!"down", .no) ∧
    builtin W (fn c!"macro" [.str c!"m"]) env (.str c!"up") = .ok (env, .int 1, .newField [(.s c!"ok", .bool true)]) := by
  refine ⟨{ W1 with macros := [(c!"m", fun v => if v = .str c!"down" then .ok (.val (.bool false)) else .ok (.tup [.int 1, .dict [(.s c!"ok", .bool true)]]))] }, ?_, ?_⟩
  · exact (C127_macro_results _ env c!"m" _ _ rfl).2.1 rfl
  · exact (C127_macro_results _ env c!"m" _ _ rfl).2.2.2.1 _ _ rfl

end Props
