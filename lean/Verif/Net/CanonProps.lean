import Verif.Net.CanonLemmas
/-
Properties C100 (what canonization of a FaceUri yields) and C101 (callbacks of canonization).
-/
namespace Ndn.Net
open Ndn.Net.Spec

variable {A : Type}

/-! ### C100: canonical form -/

/-- The schemes that can be canonized. -/
theorem C100_schemes (s : Bytes) : canCanonize s = true ↔
    s ∈ [udpText, udpText ++ [ch '4'], udpText ++ [ch '6'], tcpText, tcpText ++ [ch '4'], tcpText ++ [ch '6'], etherText,
      devText, udp4dev, udp6dev] := by
  unfold canCanonize getProvider
  simp only [List.mem_cons, List.not_mem_nil, or_false]
  constructor
  · intro h
    (repeat' split at h) <;> simp_all
    · rename_i h1; rcases h1 with h1 | h1 | h1 <;> simp [h1]
    · rename_i h1; rcases h1 with h1 | h1 | h1 <;> simp [h1]
  · rintro (rfl | rfl | rfl | rfl | rfl | rfl | rfl | rfl | rfl | rfl) <;> decide

/-- Other schemes are never canonical and their canonization fails. -/
theorem C100_other (ip : Ip A) (zx : Bool) (f : FaceUri) (h : canCanonize f.scheme = false) (evs : List (DnsEv A)) :
    f.isCanonical ip zx = false ∧ f.canonizeRun ip zx evs = [.failure .notSupported] := by
  unfold canCanonize at h
  have hn : getProvider f.scheme = none := by simpa using h
  constructor
  · unfold FaceUri.isCanonical; rw [hn]
  · unfold FaceUri.canonizeRun FaceUri.canonize; rw [hn]

/-- The scheme belongs to UDP or to TCP (`base`). -/
def IpScheme (base s : Bytes) : Prop :=
  (base = udpText ∨ base = tcpText) ∧ (s = base ∨ s = base ++ [ch '4'] ∨ s = base ++ [ch '6'])

theorem IpScheme.provider {base s : Bytes} (h : IpScheme base s) : getProvider s = some (.ip base) := by
  obtain ⟨rfl | rfl, rfl | rfl | rfl⟩ := h <;> decide

/-- A canonical UDP or TCP FaceUri: the host is the text of an address, the scheme names its family, there is a port and
no path, and a TCP address is not a multicast address. -/
theorem C100_form (ip : Ip A) (zx : Bool) (base : Bytes) (f : FaceUri) (hs : IpScheme base f.scheme)
    (h : f.isCanonical ip zx = true) :
    ∃ a, f.host = ip.text a ∧ f.scheme = base ++ [if ip.isV4 a then ch '4' else ch '6'] ∧ f.port ≠ [] ∧ f.path = [] ∧
      ¬ (base = tcpText ∧ ip.isMulticast a = true) := by
  unfold FaceUri.isCanonical at h
  rw [hs.provider] at h
  obtain ⟨a, -, h1, h2, h3, h4, h5⟩ := ipCanonical_elim h
  exact ⟨a, h1, h2, h3, h4, h5⟩

/-- And every FaceUri of that form is canonical, if the text of the address is unambiguous. -/
theorem C100_form_conv (ip : Ip A) (hip : IpOk ip) (zx : Bool) (base : Bytes) (f : FaceUri) (hs : IpScheme base f.scheme)
    (a : A) (ha : Plain ip a) (h1 : f.host = ip.text a) (h2 : f.scheme = base ++ [if ip.isV4 a then ch '4' else ch '6'])
    (h3 : f.port ≠ []) (h4 : f.path = []) (h5 : ¬ (base = tcpText ∧ ip.isMulticast a = true)) :
    f.isCanonical ip zx = true := by
  unfold FaceUri.isCanonical
  rw [hs.provider]
  exact ipCanonical_intro hip ha h1 h2 h3 h4 h5

/-- The port of the result: the given one, as a number, or the default. -/
def PortIs (ip : Ip A) (f : FaceUri) (a : A) (p : UInt16) : Prop :=
  (f.port = [] ∧ p = if ip.isMulticast a then 56363 else 6363) ∨
  (Some1 Digit f.port ∧ Name.digitsVal f.port = p.toNat)

theorem portNumber_iff (s : Bytes) (p : UInt16) :
    portNumber s = some p ↔ Some1 Digit s ∧ Name.digitsVal s = p.toNat := by
  have hall : s.all isDig = true ↔ ∀ c ∈ s, Digit c := by
    rw [List.all_eq_true]
    exact ⟨fun h c hc => (isDig_iff c).1 (h c hc), fun h c hc => (isDig_iff c).2 (h c hc)⟩
  unfold portNumber
  simp only [Name.digitsVal]
  split
  · rename_i h
    rw [hall] at h
    split
    · rename_i hn
      simp only [Option.some.injEq]
      constructor
      · rintro rfl
        exact ⟨h, by simp; omega⟩
      · rintro ⟨-, he⟩
        apply UInt16.toNat_inj.1
        rw [he]
        simp
    · rename_i hn
      simp only [reduceCtorEq, false_iff]
      rintro ⟨-, he⟩
      have := p.toNat_lt
      omega
  · rename_i h
    rw [hall] at h
    simp only [reduceCtorEq, false_iff]
    rintro ⟨hs, -⟩
    exact h hs

theorem onDnsSuccess_iff (ip : Ip A) (hip : IpOk ip) (zx : Bool) (base : Bytes) (hb : base = udpText ∨ base = tcpText)
    (f g : FaceUri) (a : A) (ha : Plain ip a) :
    onDnsSuccess ip zx base f a = .success g ↔
      ¬ (base = tcpText ∧ ip.isMulticast a = true) ∧ ∃ p, PortIs ip f a p ∧ g = FaceUri.ofEndpoint ip base a p := by
  unfold onDnsSuccess
  cases hc : checkAddress ip base a with
  | false =>
    have : ¬ ¬ (base = tcpText ∧ ip.isMulticast a = true) := by
      rw [← checkAddress_iff, hc]; simp
    simp [this]
  | true =>
    have hm := (checkAddress_iff ip base a).1 hc
    simp only [Bool.not_true, Bool.false_eq_true, if_false]
    split
    · rename_i hp
      rw [assertCanonical, if_pos (ofEndpoint_canonical hip zx hb ha _ hm)]
      simp only [Act.success.injEq]
      constructor
      · rintro rfl; exact ⟨hm, _, Or.inl ⟨hp, rfl⟩, rfl⟩
      · rintro ⟨-, p, hp' | hp', rfl⟩
        · rw [hp'.2]
        · exact absurd hp hp'.1.1
    · rename_i hp
      cases hn : portNumber f.port with
      | none =>
        simp only [reduceCtorEq, false_iff]
        rintro ⟨-, p, hp' | hp', rfl⟩
        · exact hp hp'.1
        · rw [(portNumber_iff f.port p).2 hp'] at hn
          simp at hn
      | some p =>
        have hp1 := (portNumber_iff f.port p).1 hn
        dsimp only
        rw [assertCanonical, if_pos (ofEndpoint_canonical hip zx hb ha _ hm)]
        simp only [Act.success.injEq]
        constructor
        · rintro rfl; exact ⟨hm, p, Or.inr hp1, rfl⟩
        · rintro ⟨-, q, hq | hq, rfl⟩
          · exact absurd hq.1 hp
          · have : p = q := UInt16.toNat_inj.1 (by rw [← hp1.2, ← hq.2])
            rw [this]

/-- A UDP or TCP FaceUri whose host is an address: canonization yields the FaceUri itself if it is canonical, otherwise the
FaceUri of the endpoint made of that address and of the given or default port, and it yields nothing else. It fails exactly
when the scheme names the other family, for a TCP multicast address, and for a port that is not a number below 65536. -/
theorem C100_address_partial (ip : Ip A) (hip : IpOk ip) (zx : Bool) (base : Bytes) (f g : FaceUri)
    (hs : IpScheme base f.scheme) (a : A) (hh : ip.make (unescapeHost f.host) = some a) (ha : Plain ip a) :
    f.canonize ip zx = .success g ↔
      (f.isCanonical ip zx = true ∧ g = f) ∨
      (f.isCanonical ip zx = false ∧ (f.scheme = base ∨ f.scheme = base ++ [if ip.isV4 a then ch '4' else ch '6']) ∧
        ¬ (base = tcpText ∧ ip.isMulticast a = true) ∧ ∃ p, PortIs ip f a p ∧ g = FaceUri.ofEndpoint ip base a p) := by
  have hcan : f.isCanonical ip zx = ipCanonical ip base f := by
    unfold FaceUri.isCanonical; rw [hs.provider]
  unfold FaceUri.canonize
  rw [hs.provider, hcan]
  dsimp only
  cases hc : ipCanonical ip base f with
  | true =>
    simp only [if_true, Act.success.injEq, true_and, Bool.true_eq_false, false_and, or_false]
    exact ⟨fun h => h.symm, fun h => h.symm⟩
  | false =>
    simp only [Bool.false_eq_true, if_false, false_and, true_and, false_or, hh]
    have h46 : base ++ [ch '4'] ≠ base ++ [ch '6'] := by
      intro h
      exact absurd (List.append_cancel_left h) (by decide)
    have hb4 : ∀ x, base ≠ base ++ [x] := by
      intro x h
      have := congrArg List.length h
      simp at this
    split
    · rename_i hmis
      simp only [reduceCtorEq, false_iff]
      rintro ⟨hsch, -⟩
      rcases hmis with ⟨h1, h2⟩ | ⟨h1, h2⟩
      · rw [h1, if_neg h2] at hsch
        exact hsch.elim (fun h => hb4 _ h.symm) h46
      · rw [h1, if_pos h2] at hsch
        exact hsch.elim (fun h => hb4 _ h.symm) (fun h => h46 h.symm)
    · rename_i hmis
      have hsch : f.scheme = base ∨ f.scheme = base ++ [if ip.isV4 a then ch '4' else ch '6'] := by
        rcases hs.2 with h | h | h
        · exact Or.inl h
        · refine Or.inr ?_
          cases h4 : ip.isV4 a with
          | true => exact h
          | false => exact absurd (Or.inl ⟨h, by simp [h4]⟩) hmis
        · refine Or.inr ?_
          cases h4 : ip.isV4 a with
          | true => exact absurd (Or.inr ⟨h, h4⟩) hmis
          | false => exact h
      rw [onDnsSuccess_iff ip hip zx base hs.1 f g a ha]
      exact ⟨fun h => ⟨hsch, h⟩, fun h => h.2⟩

/-- Two FaceUris for the same address and port that are not yet canonical have the same canonical form. -/
theorem C100_same (ip : Ip A) (hip : IpOk ip) (zx : Bool) (base : Bytes) (f f' g g' : FaceUri)
    (hs : IpScheme base f.scheme) (hs' : IpScheme base f'.scheme) (a : A) (p : UInt16)
    (hh : ip.make (unescapeHost f.host) = some a) (hh' : ip.make (unescapeHost f'.host) = some a) (ha : Plain ip a)
    (hp : PortIs ip f a p) (hp' : PortIs ip f' a p) (hc : f.isCanonical ip zx = false) (hc' : f'.isCanonical ip zx = false)
    (hg : f.canonize ip zx = .success g) (hg' : f'.canonize ip zx = .success g') : g = g' := by
  have key : ∀ {f : FaceUri} {q : UInt16}, PortIs ip f a p → PortIs ip f a q → q = p := by
    rintro f q (⟨h1, h2⟩ | ⟨h1, h2⟩) (⟨h3, h4⟩ | ⟨h3, h4⟩)
    · rw [h2, h4]
    · exact absurd h1 h3.1
    · exact absurd h3 h1.1
    · exact UInt16.toNat_inj.1 (by rw [← h2, ← h4])
  rcases (C100_address_partial ip hip zx base f g hs a hh ha).1 hg with ⟨h, -⟩ | ⟨-, -, -, q, hq, rfl⟩
  · rw [h] at hc; simp at hc
  · rcases (C100_address_partial ip hip zx base f' g' hs' a hh' ha).1 hg' with ⟨h, -⟩ | ⟨-, -, -, q', hq', rfl⟩
    · rw [h] at hc'; simp at hc'
    · rw [key hp hq, key hp' hq']

/-- Canonical forms are unique: two canonical FaceUris for the same address, protocol and port number are equal. -/
def C100_unique_claim : Prop :=
  ∀ (A : Type) (ip : Ip A), IpOk ip → ∀ (zx : Bool) (f g : FaceUri) (s t : Bytes) (a : A),
    FaceUri.parse s = (true, f) → FaceUri.parse t = (true, g) → f.isCanonical ip zx = true → g.isCanonical ip zx = true →
    f.scheme = g.scheme → f.host = ip.text a → g.host = ip.text a → Name.digitsVal f.port = Name.digitsVal g.port → f = g

/-- `udp4://1.2.3.4:1` and `udp4://1.2.3.4:01` are both canonical. So is `udp4://1.2.3.4:99999`, which canonization
reports as success. -/
theorem C100_unique_counterexample : ¬ C100_unique_claim ∧
    FaceUri.canonize toyIp true { scheme := udpText ++ [ch '4'], host := Toy.text .v4, port := [ch '9', ch '9', ch '9', ch '9', ch '9'] } =
      .success { scheme := udpText ++ [ch '4'], host := Toy.text .v4, port := [ch '9', ch '9', ch '9', ch '9', ch '9'] } := by
  constructor
  · intro h
    have := h Toy toyIp toyIp_ok true { scheme := udpText ++ [ch '4'], host := Toy.text .v4, port := [ch '1'] }
      { scheme := udpText ++ [ch '4'], host := Toy.text .v4, port := [ch '0', ch '1'] }
      (udpText ++ [ch '4'] ++ schemeEnd ++ Toy.text .v4 ++ [ch ':', ch '1'])
      (udpText ++ [ch '4'] ++ schemeEnd ++ Toy.text .v4 ++ [ch ':', ch '0', ch '1']) .v4
      (by decide +kernel) (by decide +kernel) (by decide +kernel) (by decide +kernel) rfl rfl rfl (by decide)
    exact absurd this (by decide)
  · decide +kernel

/-- For one and the same port text canonical forms are unique. -/
theorem C100_unique_partial (ip : Ip A) (zx : Bool) (base : Bytes) (f g : FaceUri) (a : A)
    (hs : IpScheme base f.scheme) (hs' : IpScheme base g.scheme)
    (hf : f.isCanonical ip zx = true) (hg : g.isCanonical ip zx = true) (hip : IpOk ip)
    (h1 : f.host = ip.text a) (h2 : g.host = ip.text a) (hp : f.port = g.port) (h6 : f.isV6 = g.isV6) : f = g := by
  have inj : ∀ {x y : A}, ip.text x = ip.text y → x = y := by
    intro x y h
    have := hip.make_text x
    rw [h, hip.make_text y] at this
    injection this with this
    exact this.symm
  obtain ⟨x, hx1, hx2, -, hx4, -⟩ := C100_form ip zx base f hs hf
  obtain ⟨y, hy1, hy2, -, hy4, -⟩ := C100_form ip zx base g hs' hg
  have ex : x = a := inj (by rw [← hx1, h1])
  have ey : y = a := inj (by rw [← hy1, h2])
  subst ex
  subst ey
  obtain ⟨a1, a2, a3, a4, a5⟩ := f
  obtain ⟨b1, b2, b3, b4, b5⟩ := g
  simp only [FaceUri.mk.injEq]
  exact ⟨hx2.trans hy2.symm, h1.trans h2.symm, hp, hx4.trans hy4.symm, h6⟩

/-- A canonical FaceUri is its own canonical form. -/
def C100_fixed_claim : Prop :=
  ∀ (A : Type) (ip : Ip A) (zx : Bool) (s : Bytes) (f : FaceUri), FaceUri.parse s = (true, f) → f.isCanonical ip zx = true →
    f.canonize ip zx = .success f

/-- `ether://[00:00:00:00:00:00]` is canonical, but its canonization fails; `dev://[ab]` is canonical, but its
canonization yields the different FaceUri `dev://ab`. -/
theorem C100_fixed_counterexample : ¬ C100_fixed_claim ∧
    (let f : FaceUri := { scheme := devText, host := [ch 'a', ch 'b'], isV6 := true }
     FaceUri.parse (devText ++ schemeEnd ++ [ch '[', ch 'a', ch 'b', ch ']']) = (true, f) ∧ f.isCanonical toyIp true = true ∧
       f.canonize toyIp true = .success (FaceUri.fromDev [ch 'a', ch 'b']) ∧ FaceUri.fromDev [ch 'a', ch 'b'] ≠ f) := by
  constructor
  · intro h
    have := h Toy toyIp true (FaceUri.ofMac Mac.null).toString (FaceUri.ofMac Mac.null) (C97_ether _) (by decide +kernel)
    exact absurd this (by decide +kernel)
  · decide +kernel

/-- It is for UDP and TCP, with or without `+dev`; for interfaces written without brackets; and for Ethernet addresses
other than the null address, written in brackets. -/
theorem C100_fixed_partial (ip : Ip A) (zx : Bool) (f : FaceUri) (hc : f.isCanonical ip zx = true)
    (hd : f.scheme = devText → f.isV6 = false)
    (he : f.scheme = etherText → f.isV6 = true ∧ f.host ≠ Mac.null.toString (ch ':')) :
    f.canonize ip zx = .success f := by
  cases hp : getProvider f.scheme with
  | none => unfold FaceUri.isCanonical at hc; rw [hp] at hc; simp at hc
  | some pr =>
    cases pr with
    | ip base =>
      unfold FaceUri.isCanonical at hc
      rw [hp] at hc
      dsimp only at hc
      unfold FaceUri.canonize
      rw [hp]
      dsimp only
      rw [if_pos hc]
    | udpDev =>
      unfold FaceUri.canonize
      rw [hp]
      dsimp only
      rw [if_pos hc]
    | dev =>
      have hs : f.scheme = devText := by
        unfold getProvider at hp
        (repeat' split at hp) <;> simp at hp
        assumption
      have hv := hd hs
      unfold FaceUri.isCanonical at hc
      rw [hp] at hc
      simp only [Bool.and_eq_true, decide_eq_true_eq] at hc
      obtain ⟨⟨h1, h2⟩, h3⟩ := hc
      unfold FaceUri.canonize
      rw [hp]
      dsimp only
      rw [if_neg h1, if_neg (by simp [h2]), if_neg (by simp [h3]), assertCanonical, if_pos (fromDev_canonical ip zx h1)]
      congr 1
      obtain ⟨a1, a2, a3, a4, a5⟩ := f
      simp only [FaceUri.fromDev, FaceUri.mk.injEq] at *
      exact ⟨hs.symm, trivial, h2.symm, h3.symm, hv.symm⟩
    | ether =>
      have hs : f.scheme = etherText := by
        unfold getProvider at hp
        (repeat' split at hp) <;> simp at hp
        assumption
      obtain ⟨hv, hn⟩ := he hs
      unfold FaceUri.isCanonical at hc
      rw [hp] at hc
      dsimp only at hc
      split at hc
      · simp at hc
      · rename_i h2
        split at hc
        · simp at hc
        · rename_i h3
          have hh : (Mac.fromString zx f.host).toString (ch ':') = f.host := by simpa using hc
          unfold FaceUri.canonize
          rw [hp]
          dsimp only
          have hnn : (Mac.fromString zx f.host).isNull = false := by
            simp only [Mac.isNull, decide_eq_false_iff_not]
            intro h
            rw [h] at hh
            exact hn hh.symm
          rw [hnn, if_neg (by simp), assertCanonical, if_pos (ofMac_canonical ip zx _)]
          congr 1
          obtain ⟨a1, a2, a3, a4, a5⟩ := f
          simp only [FaceUri.ofMac, FaceUri.mk.injEq] at *
          exact ⟨hs.symm, hh, by simpa using (Eq.symm (Classical.not_not.1 h2)), by simpa using (Eq.symm (Classical.not_not.1 h3)), hv.symm⟩

/-- An Ethernet FaceUri: canonization yields the FaceUri of the address that is read from the host, and fails exactly when
that is the null address (which stands for an unreadable one as well). -/
theorem C100_ether (ip : Ip A) (zx : Bool) (f : FaceUri) (hs : f.scheme = etherText) :
    f.canonize ip zx = if Mac.fromString zx f.host = Mac.null then .failure .badMac
      else .success (FaceUri.ofMac (Mac.fromString zx f.host)) := by
  have hp : getProvider f.scheme = some .ether := by rw [hs]; decide
  unfold FaceUri.canonize
  rw [hp]
  dsimp only
  by_cases h : Mac.fromString zx f.host = Mac.null
  · rw [if_pos (by simp [Mac.isNull, h]), if_pos h]
  · rw [if_neg (by simp [Mac.isNull, h]), if_neg h, assertCanonical, if_pos (ofMac_canonical ip zx _)]

/-- An interface FaceUri: it needs a host; a port and a path other than `/` are refused. -/
theorem C100_dev (ip : Ip A) (zx : Bool) (f g : FaceUri) (hs : f.scheme = devText) :
    f.canonize ip zx = .success g ↔
      f.host ≠ [] ∧ f.port = [] ∧ (f.path = [] ∨ f.path = [ch '/']) ∧ g = FaceUri.fromDev f.host := by
  have hp : getProvider f.scheme = some .dev := by rw [hs]; decide
  unfold FaceUri.canonize
  rw [hp]
  dsimp only
  by_cases h1 : f.host = []
  · rw [if_pos h1]; simp [h1]
  · rw [if_neg h1]
    by_cases h2 : f.port = []
    · rw [if_neg (by simp [h2])]
      by_cases h3 : f.path ≠ [] ∧ f.path ≠ [ch '/']
      · rw [if_pos h3]
        simp only [reduceCtorEq, false_iff]
        rintro ⟨-, -, h, -⟩
        exact h.elim h3.1 h3.2
      · rw [if_neg h3, assertCanonical, if_pos (fromDev_canonical ip zx h1)]
        simp only [Act.success.injEq]
        have h3' : f.path = [] ∨ f.path = [ch '/'] := by
          by_cases h : f.path = []
          · exact Or.inl h
          · exact Or.inr (Classical.byContradiction fun h' => h3 ⟨h, h'⟩)
        constructor
        · rintro rfl; exact ⟨h1, h2, h3', rfl⟩
        · rintro ⟨-, -, -, rfl⟩; rfl
    · rw [if_pos h2]; simp [h2]

/-- Whatever canonization reports is canonical, and it never fails an assertion. -/
def C100_result_claim : Prop :=
  ∀ (A : Type) (ip : Ip A), IpOk ip → ∀ (zx : Bool) (s : Bytes) (f : FaceUri) (evs : List (DnsEv A)) (x : Act),
    FaceUri.parse s = (true, f) → x ∈ f.canonizeRun ip zx evs →
    (∃ r, x = .failure r) ∨ ∃ g, x = .success g ∧ g.isCanonical ip zx = true

/-- A link-local address without a zone: canonization of `udp6://[fe80::1]:1` fails the assertion that its result is
canonical. -/
theorem C100_result_counterexample : ¬ C100_result_claim := by
  intro h
  have := h Toy toyIp toyIp_ok true (FaceUri.ofEndpoint toyIp udpText .ll 1).toString
    (FaceUri.ofEndpoint toyIp udpText .ll 1) [] .assertion (by decide +kernel) (by decide +kernel)
  rcases this with ⟨r, h⟩ | ⟨g, h, -⟩ <;> simp at h

theorem onDnsSuccess_good (ip : Ip A) (hip : IpOk ip) (zx : Bool) (base : Bytes) (hb : base = udpText ∨ base = tcpText)
    (f : FaceUri) (a : A) (ha : Plain ip a) :
    (∃ r, onDnsSuccess ip zx base f a = .failure r) ∨
    ∃ g, onDnsSuccess ip zx base f a = .success g ∧ g.isCanonical ip zx = true := by
  unfold onDnsSuccess
  cases hc : checkAddress ip base a with
  | false => exact Or.inl ⟨_, rfl⟩
  | true =>
    have hm := (checkAddress_iff ip base a).1 hc
    simp only [Bool.not_true, Bool.false_eq_true, if_false]
    split
    · rw [assertCanonical, if_pos (ofEndpoint_canonical hip zx hb ha _ hm)]
      exact Or.inr ⟨_, rfl, ofEndpoint_canonical hip zx hb ha _ hm⟩
    · cases portNumber f.port with
      | none => exact Or.inl ⟨_, rfl⟩
      | some p =>
        dsimp only
        rw [assertCanonical, if_pos (ofEndpoint_canonical hip zx hb ha _ hm)]
        exact Or.inr ⟨_, rfl, ofEndpoint_canonical hip zx hb ha _ hm⟩

/-! ### C101: the callbacks -/

/-- The states a name resolution can reach. -/
inductive St (sel : A → Bool) (evs : List (DnsEv A)) : Dns A → Prop
  | fresh : St sel evs { }
  | timedOut : St sel evs { op := .running, cancelled := true, timer := false, calls := [.fail .timedOut] }
  | ready (r) : r ≠ .aborted → .finish r ∈ evs ∨ r = .error → St sel evs { op := .queued r }
  | late (r) : r = .aborted ∨ .finish r ∈ evs ∨ r = .error →
      St sel evs { op := .queued r, cancelled := true, timer := false, calls := [.fail .timedOut] }
  | done (c b) : c ≠ .fail .timedOut → (∀ a, c = .ok a → ∃ as, .finish (.found as) ∈ evs ∧ as.find? sel = some a) →
      St sel evs { op := .delivered, cancelled := b, timer := false, calls := [c] }
  | doneOut : St sel evs { op := .delivered, cancelled := true, timer := false, calls := [.fail .timedOut] }
  | doneBoth (c) : c ≠ .fail .timedOut → (∀ a, c = .ok a → ∃ as, .finish (.found as) ∈ evs ∧ as.find? sel = some a) →
      St sel evs { op := .delivered, cancelled := true, timer := false, calls := [.fail .timedOut, c] }

theorem St.mono {sel : A → Bool} {evs evs' : List (DnsEv A)} {d : Dns A} (h : St sel evs d) (hs : ∀ e ∈ evs, e ∈ evs') :
    St sel evs' d := by
  cases h with
  | fresh => exact .fresh
  | timedOut => exact .timedOut
  | ready r h1 h2 => exact .ready r h1 (h2.imp_left (hs _))
  | late r h => exact .late r (h.imp_right (Or.imp_left (hs _)))
  | done c b h1 h2 => exact .done c b h1 (fun a ha => let ⟨as, h3, h4⟩ := h2 a ha; ⟨as, hs _ h3, h4⟩)
  | doneOut => exact .doneOut
  | doneBoth c h1 h2 => exact .doneBoth c h1 (fun a ha => let ⟨as, h3, h4⟩ := h2 a ha; ⟨as, hs _ h3, h4⟩)

theorem St.step {sel : A → Bool} {evs : List (DnsEv A)} {d : Dns A} (h : St sel evs d) (e : DnsEv A) :
    St sel (evs ++ [e]) (d.step sel e) := by
  have hm : ∀ x ∈ evs, x ∈ evs ++ [e] := fun x hx => List.mem_append_left _ hx
  have deliver : ∀ (r : DnsResult A) (b : Bool) (cs : List (DnsCall A)), (r = .aborted ∨ .finish r ∈ evs ∨ r = .error) →
      (r ≠ .aborted → ∃ c, (onResolveResult sel { op := .queued r, cancelled := b, timer := true, calls := cs } r) =
        { op := .delivered, cancelled := b, timer := false, calls := cs ++ [c] } ∧ c ≠ .fail .timedOut ∧
        (∀ a, c = .ok a → ∃ as, .finish (.found as) ∈ evs ++ [e] ∧ as.find? sel = some a)) := by
    intro r b cs hr hn
    cases r with
    | aborted => exact absurd rfl hn
    | error => exact ⟨.fail .notResolved, rfl, by simp, by simp⟩
    | found as =>
      have hmem : DnsEv.finish (.found as) ∈ evs ++ [e] := by
        rcases hr with hr | hr | hr
        · simp at hr
        · exact hm _ hr
        · simp at hr
      cases hf : as.find? sel with
      | none => exact ⟨.fail .noMatch, by simp [onResolveResult, hf], by simp, by simp⟩
      | some a =>
        refine ⟨.ok a, by simp [onResolveResult, hf], by simp, ?_⟩
        intro a' ha'
        injection ha' with ha'
        subst ha'
        exact ⟨as, hmem, hf⟩
  cases h with
  | fresh =>
    cases e with
    | finish r =>
      cases r with
      | error => exact .ready _ (by simp) (Or.inr rfl)
      | aborted => exact .ready _ (by simp) (Or.inr rfl)
      | found as => exact .ready _ (by simp) (Or.inl (by simp))
    | deliver => exact .fresh
    | expire => exact .timedOut
  | timedOut =>
    cases e with
    | finish r => exact .late _ (Or.inl rfl)
    | deliver => exact .timedOut
    | expire => exact .timedOut
  | ready r h1 h2 =>
    cases e with
    | finish r' => exact St.mono (.ready r h1 h2) hm
    | deliver =>
      obtain ⟨c, hc, h3, h4⟩ := deliver r false [] (Or.inr h2) h1
      have : Dns.step sel { op := .queued r } .deliver =
        onResolveResult sel { op := .queued r, cancelled := false, timer := true, calls := [] } r := rfl
      rw [this, hc]
      exact .done c false h3 h4
    | expire => exact .late r (Or.inr (h2.imp_left (hm _)))
  | late r h =>
    cases e with
    | finish r' => exact St.mono (.late r h) hm
    | expire => exact St.mono (.late r h) hm
    | deliver =>
      by_cases hr : r = .aborted
      · subst hr; exact .doneOut
      · obtain ⟨c, hc, h3, h4⟩ := deliver r true [.fail .timedOut] h hr
        have : Dns.step sel { op := .queued r, cancelled := true, timer := false, calls := [.fail .timedOut] } .deliver =
          onResolveResult sel { op := .queued r, cancelled := true, timer := true, calls := [.fail .timedOut] } r := rfl
        rw [this, hc]
        exact .doneBoth c h3 h4
  | done c b h1 h2 =>
    have h' := St.mono (.done (evs := evs) c b h1 h2) hm
    cases e <;> exact h'
  | doneOut => cases e <;> exact .doneOut
  | doneBoth c h1 h2 =>
    have h' := St.mono (.doneBoth (evs := evs) c h1 h2) hm
    cases e <;> exact h'

theorem dns_snoc (sel : A → Bool) (evs : List (DnsEv A)) (e : DnsEv A) :
    Dns.run sel (evs ++ [e]) = (Dns.run sel evs).step sel e := by
  simp [Dns.run, List.foldl_append]

theorem st_run (sel : A → Bool) (evs : List (DnsEv A)) : St sel evs (Dns.run sel evs) := by
  rw [← List.reverse_reverse evs]
  induction evs.reverse with
  | nil => exact .fresh
  | cons e l ih =>
    rw [List.reverse_cons, dns_snoc]
    exact ih.step e

/-- At most two callbacks are made, and there are two only if the first one reports the timeout. A reported address is
the first one of the results that the selector accepts. -/
theorem C101_dns (sel : A → Bool) (evs : List (DnsEv A)) :
    (Dns.run sel evs).calls.length ≤ 2 ∧
    (∀ c₁ c₂, (Dns.run sel evs).calls = [c₁, c₂] → c₁ = .fail .timedOut ∧ c₂ ≠ .fail .timedOut) ∧
    (∀ a, .ok a ∈ (Dns.run sel evs).calls → ∃ as, .finish (.found as) ∈ evs ∧ as.find? sel = some a) := by
  have h := st_run sel evs
  generalize Dns.run sel evs = d at h
  cases h with
  | fresh => exact ⟨by simp, by simp, by simp⟩
  | timedOut => exact ⟨by simp, by simp, by simp⟩
  | ready r h1 h2 => exact ⟨by simp, by simp, by simp⟩
  | late r h => exact ⟨by simp, by simp, by simp⟩
  | done c b h1 h2 => exact ⟨by simp, by simp, fun a ha => h2 a (by simpa using (List.mem_singleton.1 ha).symm)⟩
  | doneOut => exact ⟨by simp, by simp, by simp⟩
  | doneBoth c h1 h2 =>
    refine ⟨by simp, ?_, fun a ha => ?_⟩
    · intro c₁ c₂ hc
      simp only [List.cons.injEq, and_true] at hc
      exact ⟨hc.1.symm, hc.2 ▸ h1⟩
    · simp only [List.mem_cons, List.not_mem_nil, or_false, reduceCtorEq, false_or] at ha
      exact h2 a ha.symm

/-- Canonization calls exactly one of its callbacks, once, unless the io_context stops. -/
def C101_once_claim : Prop :=
  ∀ (A : Type) (ip : Ip A), IpOk ip → ∀ (zx : Bool) (f : FaceUri) (evs : List (DnsEv A)),
    (f.canonizeRun ip zx evs).length ≤ 1

/-- If the timeout expires while the finished resolution waits to be delivered, both callbacks are called. -/
theorem C101_once_counterexample : ¬ C101_once_claim := by
  intro h
  have := h Toy toyIp toyIp_ok true { scheme := udpText, host := [ch 'h'] } [.finish (.found [.v4]), .expire, .deliver]
  exact absurd this (by decide +kernel)

/-- The timeout does not expire between the end of the resolution and its delivery. -/
def Prompt (evs : List (DnsEv A)) : Prop :=
  ¬ ∃ pre r mid post, evs = pre ++ .finish r :: (mid ++ .expire :: post) ∧ .deliver ∉ mid ∧ .expire ∉ pre

theorem dns_append (sel : A → Bool) (l l' : List (DnsEv A)) (d : Dns A) :
    (l ++ l').foldl (Dns.step sel) d = l'.foldl (Dns.step sel) (l.foldl (Dns.step sel) d) := List.foldl_append ..

theorem Prompt.prefix {l : List (DnsEv A)} {e : DnsEv A} (h : Prompt (l ++ [e])) : Prompt l := by
  rintro ⟨pre, r, mid, post, rfl, h1, h2⟩
  exact h ⟨pre, r, mid, post ++ [e], by simp, h1, h2⟩

/-- While a finished resolution waits and the timeout has not expired, the history ends with the finish and no delivery. -/
theorem queued_history (sel : A → Bool) (evs : List (DnsEv A)) :
    ((Dns.run sel evs).timer = true → .expire ∉ evs) ∧
    (∀ r, (Dns.run sel evs).op = .queued r → ∃ pre r' mid, evs = pre ++ .finish r' :: mid ∧ .deliver ∉ mid) := by
  rw [← List.reverse_reverse evs]
  induction evs.reverse with
  | nil => exact ⟨by simp, by simp [Dns.run]⟩
  | cons e l ih =>
    rw [List.reverse_cons, dns_snoc]
    generalize l.reverse = evs at ih
    obtain ⟨ih1, ih2⟩ := ih
    generalize Dns.run sel evs = d at ih1 ih2
    cases e with
    | finish r =>
      simp only [Dns.step]
      cases hop : d.op with
      | running =>
        dsimp only
        refine ⟨fun ht => ?_, fun r' hr => ⟨evs, r, [], by simp, by simp⟩⟩
        simp [ih1 ht]
      | queued r' =>
        dsimp only
        refine ⟨fun ht => by simp [ih1 ht], fun r'' hr => ?_⟩
        obtain ⟨pre, q, mid, rfl, hm⟩ := ih2 r' hop
        exact ⟨pre, q, mid ++ [.finish r], by simp, by simp [hm]⟩
      | delivered =>
        dsimp only
        refine ⟨fun ht => by simp [ih1 ht], fun r'' hr => ?_⟩
        rw [hop] at hr; simp at hr
    | deliver =>
      simp only [Dns.step]
      cases hop : d.op with
      | running =>
        dsimp only
        refine ⟨fun ht => by simp [ih1 ht], fun r'' hr => ?_⟩
        rw [hop] at hr; simp at hr
      | queued r' =>
        dsimp only
        have hx : (onResolveResult sel d r').timer = false ∧ (onResolveResult sel d r').op = .delivered := by
          unfold onResolveResult
          cases r' with
          | error => exact ⟨rfl, rfl⟩
          | aborted => exact ⟨rfl, rfl⟩
          | found as =>
            dsimp only
            cases as.find? sel <;> exact ⟨rfl, rfl⟩
        refine ⟨fun ht => ?_, fun r'' hr => ?_⟩
        · rw [hx.1] at ht; simp at ht
        · rw [hx.2] at hr; simp at hr
      | delivered =>
        dsimp only
        refine ⟨fun ht => by simp [ih1 ht], fun r'' hr => ?_⟩
        rw [hop] at hr; simp at hr
    | expire =>
      simp only [Dns.step]
      split
      · refine ⟨fun ht => by simp at ht, fun r'' hr => ?_⟩
        obtain ⟨pre, q, mid, rfl, hm⟩ := ih2 r'' hr
        exact ⟨pre, q, mid ++ [.expire], by simp, by simp [hm]⟩
      · rename_i ht'
        refine ⟨fun ht => absurd ht ht', fun r'' hr => ?_⟩
        obtain ⟨pre, q, mid, rfl, hm⟩ := ih2 r'' hr
        exact ⟨pre, q, mid ++ [.expire], by simp, by simp [hm]⟩

theorem prompt_dns (sel : A → Bool) (evs : List (DnsEv A)) (hp : Prompt evs) :
    (Dns.run sel evs).calls.length ≤ 1 ∧
    ∀ r, (Dns.run sel evs).op = .queued r → (Dns.run sel evs).timer = false → r = .aborted := by
  have key : ∀ l : List (DnsEv A), Prompt l.reverse → (Dns.run sel l.reverse).calls.length ≤ 1 ∧
      ∀ r, (Dns.run sel l.reverse).op = .queued r → (Dns.run sel l.reverse).timer = false → r = .aborted := by
    intro l
    induction l with
    | nil => intro _; exact ⟨by simp [Dns.run], by simp [Dns.run]⟩
    | cons e l ih =>
      rw [List.reverse_cons]
      intro hp
      obtain ⟨ih1, ih2⟩ := ih hp.prefix
      have hst := st_run sel l.reverse
      have hq := queued_history sel l.reverse
      rw [dns_snoc]
      generalize l.reverse = evs at *
      generalize Dns.run sel evs = d at *
      cases hst with
      | fresh =>
        cases e with
        | finish r => exact ⟨by simp [Dns.step], by simp [Dns.step]⟩
        | deliver => exact ⟨by simp [Dns.step], by simp [Dns.step]⟩
        | expire => exact ⟨by simp [Dns.step], by simp [Dns.step]⟩
      | timedOut =>
        cases e with
        | finish r => exact ⟨by simp [Dns.step], by simp [Dns.step]⟩
        | deliver => exact ⟨by simp [Dns.step], by simp [Dns.step]⟩
        | expire => exact ⟨by simp [Dns.step], by simp [Dns.step]⟩
      | ready r h1 h2 =>
        cases e with
        | finish r => exact ⟨by simp [Dns.step], by simp [Dns.step]⟩
        | deliver =>
          have h' := (St.ready (sel := sel) (evs := evs) r h1 h2).step .deliver
          generalize hd : Dns.step sel { op := .queued r } .deliver = d' at h'
          have hop : d'.op = .delivered ∧ d'.calls.length ≤ 1 := by
            rw [← hd]
            simp only [Dns.step, onResolveResult]
            cases r with
            | error => exact ⟨rfl, by simp⟩
            | aborted => exact ⟨rfl, by simp⟩
            | found as =>
              dsimp only
              cases as.find? sel <;> exact ⟨rfl, by simp⟩
          exact ⟨hop.2, fun r hr => by rw [hop.1] at hr; simp at hr⟩
        | expire =>
          obtain ⟨pre, q, mid, rfl, hm⟩ := hq.2 r rfl
          have hne := hq.1 rfl
          refine absurd ⟨pre, q, mid, [], by simp, hm, ?_⟩ hp
          intro h
          exact hne (List.mem_append_left _ h)
      | late r h =>
        have hr := ih2 r rfl rfl
        subst hr
        cases e with
        | finish r => exact ⟨by simp [Dns.step], by simp [Dns.step]⟩
        | deliver => exact ⟨by simp [Dns.step, onResolveResult], by simp [Dns.step, onResolveResult]⟩
        | expire => exact ⟨by simp [Dns.step], by simp [Dns.step]⟩
      | done c b h1 h2 => cases e <;> exact ⟨by simp [Dns.step], by simp [Dns.step]⟩
      | doneOut => cases e <;> exact ⟨by simp [Dns.step], by simp [Dns.step]⟩
      | doneBoth c h1 h2 => simp at ih1
  have := key evs.reverse
  rw [List.reverse_reverse] at this
  exact this hp

/-- Otherwise at most one callback is called. -/
theorem C101_once_partial (ip : Ip A) (zx : Bool) (f : FaceUri) (evs : List (DnsEv A)) (hp : Prompt evs) :
    (f.canonizeRun ip zx evs).length ≤ 1 := by
  unfold FaceUri.canonizeRun
  split
  · rw [List.length_map]
    exact (prompt_dns _ evs hp).1
  · simp

/-- A callback is called at once, or as soon as the resolution has been delivered or the timeout has expired. -/
theorem C101_progress (ip : Ip A) (zx : Bool) (f : FaceUri) (evs : List (DnsEv A))
    (h : .expire ∈ evs ∨ ∃ pre r mid post, evs = pre ++ .finish r :: (mid ++ .deliver :: post)) :
    1 ≤ (f.canonizeRun ip zx evs).length := by
  unfold FaceUri.canonizeRun
  split
  · rename_i host sel _
    rw [List.length_map]
    generalize selector ip sel = sl
    have grow : ∀ (l : List (DnsEv A)) (d : Dns A), d.calls.length ≤ (l.foldl (Dns.step sl) d).calls.length := by
      intro l
      induction l with
      | nil => intro d; exact Nat.le_refl _
      | cons e l ih =>
        intro d
        refine Nat.le_trans ?_ (ih (d.step sl e))
        cases e with
        | finish r => simp only [Dns.step]; split <;> simp
        | deliver =>
          simp only [Dns.step]
          split
          · rename_i r _
            unfold onResolveResult
            cases r with
            | error => simp
            | aborted => simp
            | found as => dsimp only; cases as.find? sl <;> simp
          · simp
        | expire => simp only [Dns.step]; split <;> simp
    rcases h with h | ⟨pre, r, mid, post, rfl⟩
    · obtain ⟨pre, post, rfl⟩ := List.append_of_mem h
      have hst := st_run sl pre
      unfold Dns.run
      rw [List.foldl_append, List.foldl_cons]
      refine Nat.le_trans ?_ (grow post _)
      show 1 ≤ ((Dns.run sl pre).step sl .expire).calls.length
      generalize Dns.run sl pre = d at hst
      cases hst <;> simp [Dns.step]
    · have hst := st_run sl (pre ++ .finish r :: mid)
      have hne : (Dns.run sl (pre ++ .finish r :: mid)).op ≠ .running := by
        have stay : ∀ (l : List (DnsEv A)) (d : Dns A), d.op ≠ .running → (l.foldl (Dns.step sl) d).op ≠ .running := by
          intro l
          induction l with
          | nil => intro d h; exact h
          | cons e l ih =>
            intro d h
            refine ih _ ?_
            cases e with
            | finish r =>
              simp only [Dns.step]
              exact h
            | deliver =>
              simp only [Dns.step]
              split
              · rename_i r _
                unfold onResolveResult
                cases r with
                | error => simp
                | aborted => simp
                | found as => dsimp only; cases as.find? sl <;> simp
              · exact h
            | expire => simp only [Dns.step]; split <;> exact h
        unfold Dns.run
        rw [List.foldl_append, List.foldl_cons]
        apply stay
        simp only [Dns.step]
        split
        · simp
        · rename_i h; exact fun h' => h h'
      have he : pre ++ .finish r :: (mid ++ .deliver :: post) = (pre ++ .finish r :: mid) ++ .deliver :: post := by simp
      rw [he]
      unfold Dns.run
      rw [List.foldl_append, List.foldl_cons]
      refine Nat.le_trans ?_ (grow post _)
      show 1 ≤ ((Dns.run sl (pre ++ .finish r :: mid)).step sl .deliver).calls.length
      generalize Dns.run sl (pre ++ .finish r :: mid) = d at hst hne
      cases hst with
      | fresh => simp at hne
      | timedOut => simp at hne
      | ready r h1 h2 =>
        simp only [Dns.step, onResolveResult]
        cases r with
        | error => simp
        | aborted => simp at h1
        | found as => dsimp only; cases as.find? sl <;> simp
      | late r h =>
        simp only [Dns.step, onResolveResult]
        cases r with
        | error => simp
        | aborted => simp
        | found as => dsimp only; cases as.find? sl <;> simp
      | done c b h1 h2 => simp [Dns.step]
      | doneOut => simp [Dns.step]
      | doneBoth c h1 h2 => simp [Dns.step]
  · simp

example : Prompt ([.finish (.found [Toy.v4]), .deliver] : List (DnsEv Toy)) := by
  rintro ⟨pre, r, mid, post, h, -, -⟩
  have := congrArg (fun l => l.any (fun e : DnsEv Toy => match e with | .expire => true | _ => false)) h
  simp at this

/-- Canonization of any parsed FaceUri whose addresses have unambiguous texts: each report is a failure or a canonical
FaceUri, and no assertion fails. -/
theorem C100_result_partial (ip : Ip A) (hip : IpOk ip) (zx : Bool) (f : FaceUri) (evs : List (DnsEv A)) (x : Act)
    (h1 : ∀ a, ip.make (unescapeHost f.host) = some a → Plain ip a)
    (h2 : ∀ as a, .finish (.found as) ∈ evs → a ∈ as → Plain ip a) (hx : x ∈ f.canonizeRun ip zx evs) :
    (∃ r, x = .failure r) ∨ ∃ g, x = .success g ∧ g.isCanonical ip zx = true := by
  unfold FaceUri.canonizeRun at hx
  split at hx
  · rename_i host sel hcan
    rw [List.mem_map] at hx
    obtain ⟨c, hc, rfl⟩ := hx
    cases c with
    | fail r => exact Or.inl ⟨r, rfl⟩
    | ok a =>
      obtain ⟨as, has, hf⟩ := (C101_dns (selector ip sel) evs).2.2 a hc
      have ha := h2 as a has (List.mem_of_find?_eq_some hf)
      cases hp : getProvider f.scheme with
      | none => unfold FaceUri.canonize at hcan; rw [hp] at hcan; simp at hcan
      | some pr =>
        cases pr with
        | ip base =>
          dsimp only
          exact onDnsSuccess_good ip hip zx base (getProvider_ip hp).1 f a ha
        | ether => rw [FaceUri.canonize, hp] at hcan; simp only [assertCanonical] at hcan; (repeat' split at hcan) <;> simp at hcan
        | dev => rw [FaceUri.canonize, hp] at hcan; simp only [assertCanonical] at hcan; (repeat' split at hcan) <;> simp at hcan
        | udpDev => rw [FaceUri.canonize, hp] at hcan; dsimp only at hcan; split at hcan <;> simp at hcan
  · rename_i hres
    rw [List.mem_singleton] at hx
    subst hx
    cases hp : getProvider f.scheme with
    | none => exact Or.inl ⟨.notSupported, by unfold FaceUri.canonize; rw [hp]⟩
    | some pr =>
      cases pr with
      | ip base =>
        cases hc : ipCanonical ip base f with
        | true =>
          have hcan : f.isCanonical ip zx = true := by unfold FaceUri.isCanonical; rw [hp]; exact hc
          exact Or.inr ⟨f, by unfold FaceUri.canonize; rw [hp]; simp [hc], hcan⟩
        | false =>
          cases hm : ip.make (unescapeHost f.host) with
          | some a =>
            have hg := onDnsSuccess_good ip hip zx base (getProvider_ip hp).1 f a (h1 a hm)
            unfold FaceUri.canonize
            rw [hp]
            simp only [hc, Bool.false_eq_true, if_false, hm]
            split
            · exact Or.inl ⟨_, rfl⟩
            · exact hg
          | none =>
            exfalso
            unfold FaceUri.canonize at hres
            rw [hp] at hres
            simp only [hc, Bool.false_eq_true, if_false, hm] at hres
            split at hres
            · exact hres _ _ rfl
            · split at hres
              · exact hres _ _ rfl
              · exact hres _ _ rfl
      | ether =>
        have hs : f.scheme = etherText := by
          unfold getProvider at hp
          (repeat' split at hp) <;> simp at hp
          assumption
        rw [C100_ether ip zx f hs]
        split
        · exact Or.inl ⟨_, rfl⟩
        · exact Or.inr ⟨_, rfl, ofMac_canonical ip zx _⟩
      | dev =>
        unfold FaceUri.canonize
        rw [hp]
        dsimp only
        split
        · exact Or.inl ⟨_, rfl⟩
        · rename_i hh
          split
          · exact Or.inl ⟨_, rfl⟩
          · split
            · exact Or.inl ⟨_, rfl⟩
            · rw [assertCanonical, if_pos (fromDev_canonical ip zx hh)]
              exact Or.inr ⟨_, rfl, fromDev_canonical ip zx hh⟩
      | udpDev =>
        unfold FaceUri.canonize
        rw [hp]
        dsimp only
        split
        · rename_i h
          exact Or.inr ⟨f, rfl, h⟩
        · exact Or.inl ⟨_, rfl⟩

/-- A `udp4+dev` or `udp6+dev` FaceUri is canonical with a port and without a path, and is not canonized otherwise. -/
theorem C100_udpdev (ip : Ip A) (zx : Bool) (f g : FaceUri) (hs : f.scheme = udp4dev ∨ f.scheme = udp6dev) :
    f.canonize ip zx = .success g ↔ f.port ≠ [] ∧ f.path = [] ∧ g = f := by
  have hp : getProvider f.scheme = some .udpDev := by rcases hs with h | h <;> rw [h] <;> decide
  unfold FaceUri.canonize FaceUri.isCanonical
  rw [hp]
  dsimp only
  by_cases h1 : f.port = []
  · simp [h1]
  · by_cases h2 : f.path = []
    · simp [h1, h2]; exact ⟨fun h => h.symm, fun h => h.symm⟩
    · simp [h1, h2]

/-- The addresses wanted for a scheme. -/
def Wanted (ip : Ip A) (base : Bytes) (f : FaceUri) (a : A) : Prop :=
  f.scheme = base ∨ f.scheme = base ++ [if ip.isV4 a then ch '4' else ch '6']

/-- A UDP or TCP FaceUri whose host is not an address: that host is looked up; a success reports the endpoint made of the
first wanted address that was found and of the given or default port. Conversely, when such an address was found and the
port is a number, that success is reported, once the result is delivered before the timeout. -/
theorem C100_resolve_partial (ip : Ip A) (hip : IpOk ip) (zx : Bool) (base : Bytes) (f : FaceUri)
    (hs : IpScheme base f.scheme) (hm : ip.make (unescapeHost f.host) = none) :
    (∃ sel, f.canonize ip zx = .resolve (unescapeHost f.host) sel) ∧
    (∀ evs g, (∀ as a, .finish (.found as) ∈ evs → a ∈ as → Plain ip a) → .success g ∈ f.canonizeRun ip zx evs →
      ∃ as pre a post p, .finish (.found as) ∈ evs ∧ as = pre ++ a :: post ∧ Wanted ip base f a ∧
        (∀ b ∈ pre, ¬ Wanted ip base f b) ∧ ¬ (base = tcpText ∧ ip.isMulticast a = true) ∧ PortIs ip f a p ∧
        g = FaceUri.ofEndpoint ip base a p) ∧
    (∀ pre a post p, Plain ip a → Wanted ip base f a → (∀ b ∈ pre, ¬ Wanted ip base f b) →
      ¬ (base = tcpText ∧ ip.isMulticast a = true) → PortIs ip f a p →
      f.canonizeRun ip zx [.finish (.found (pre ++ a :: post)), .deliver, .expire] =
        [.success (FaceUri.ofEndpoint ip base a p)]) := by
  have hc : ipCanonical ip base f = false := by
    unfold ipCanonical
    rw [hm]
    split
    · rfl
    · split <;> rfl
  have hb4 : ∀ x, base ≠ base ++ [x] := by
    intro x h
    have := congrArg List.length h
    simp at this
  have h46 : base ++ [ch '4'] ≠ base ++ [ch '6'] := by
    intro h
    exact absurd (List.append_cancel_left h) (by decide)
  have hcan : ∃ sel, f.canonize ip zx = .resolve (unescapeHost f.host) sel ∧
      ∀ a, selector ip sel a = true ↔ Wanted ip base f a := by
    unfold FaceUri.canonize
    rw [hs.provider]
    simp only [hc, Bool.false_eq_true, if_false, hm, Wanted]
    by_cases h4 : f.scheme = base ++ [ch '4']
    · refine ⟨some true, by rw [if_pos h4], fun a => ?_⟩
      rw [h4]
      cases hv : ip.isV4 a with
      | true => simp [selector, hv]
      | false =>
        simp only [selector, hv, Bool.false_eq_true, if_false, false_iff]
        exact fun h => h.elim (fun h => hb4 _ h.symm) h46
    · rw [if_neg h4]
      by_cases h6 : f.scheme = base ++ [ch '6']
      · refine ⟨some false, by rw [if_pos h6], fun a => ?_⟩
        rw [h6]
        cases hv : ip.isV4 a with
        | true =>
          simp only [selector, hv, Bool.not_true, Bool.false_eq_true, if_true, false_iff]
          exact fun h => h.elim (fun h => hb4 _ h.symm) (fun h => h46 h.symm)
        | false => simp [selector, hv]
      · refine ⟨none, by rw [if_neg h6], fun a => ?_⟩
        have h0 : f.scheme = base := hs.2.elim id (fun h => h.elim (fun h => absurd h h4) (fun h => absurd h h6))
        simp [selector, h0]
  obtain ⟨sel, hcan, hsel⟩ := hcan
  have hrun : ∀ evs, f.canonizeRun ip zx evs = (Dns.run (selector ip sel) evs).calls.map (fun c => match c with
      | .ok a => onDnsSuccess ip zx base f a
      | .fail r => .failure r) := by
    intro evs
    unfold FaceUri.canonizeRun
    rw [hcan, hs.provider]
    dsimp only
    apply List.map_congr_left
    intro c _
    cases c <;> rfl
  refine ⟨⟨sel, hcan⟩, ?_, ?_⟩
  · intro evs g hpl hg
    rw [hrun, List.mem_map] at hg
    obtain ⟨c, hc, hg⟩ := hg
    cases c with
    | fail r => simp at hg
    | ok a =>
      obtain ⟨as, has, hf⟩ := (C101_dns (selector ip sel) evs).2.2 a hc
      obtain ⟨hw, pre, post, rfl, hpre⟩ := List.find?_eq_some_iff_append.1 hf
      obtain ⟨h1, p, h2, h3⟩ := (onDnsSuccess_iff ip hip zx base hs.1 f g a (hpl _ a has (by simp))).1 hg
      refine ⟨_, pre, a, post, p, has, rfl, (hsel a).1 hw, fun b hb h => ?_, h1, h2, h3⟩
      have := hpre b hb
      rw [(hsel b).2 h] at this
      simp at this
  · intro pre a post p hpl hw hpre hmc hport
    have hf : (pre ++ a :: post).find? (selector ip sel) = some a := by
      rw [List.find?_eq_some_iff_append]
      refine ⟨(hsel a).2 hw, pre, post, rfl, fun b hb => ?_⟩
      cases h : selector ip sel b with
      | false => rfl
      | true => exact absurd ((hsel b).1 h) (hpre b hb)
    have : (Dns.run (selector ip sel) [.finish (.found (pre ++ a :: post)), .deliver, .expire]).calls = [.ok a] := by
      simp only [Dns.run, List.foldl_cons, List.foldl_nil, Dns.step, onResolveResult]
      simp [hf, onResolveResult]
    rw [hrun, this]
    simp only [List.map_cons, List.map_nil, List.cons.injEq, and_true]
    exact (onDnsSuccess_iff ip hip zx base hs.1 f _ a hpl).2 ⟨hmc, p, hport, rfl⟩

/-- The hypotheses are met: `udp://1.2.3.4` is resolved at once, to `udp4://1.2.3.4:6363`. -/
example : FaceUri.canonize toyIp true { scheme := udpText, host := Toy.text .v4 } =
    .success (FaceUri.ofEndpoint toyIp udpText .v4 6363) :=
  (C100_address_partial toyIp toyIp_ok true udpText _ _ ⟨Or.inl rfl, Or.inl rfl⟩ .v4 (by decide +kernel) (Or.inl (by decide))).2
    (Or.inr ⟨by decide +kernel, Or.inl rfl, (by rintro ⟨h, -⟩; exact absurd h (by decide)), 6363, Or.inl ⟨rfl, by decide⟩, rfl⟩)

end Ndn.Net
