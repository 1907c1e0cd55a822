import Verif.Net.MacLemmas
/-
Properties C97 (FaceUri text), C98 (FaceUri comparison) and C99 (Ethernet addresses).
-/
namespace Ndn.Net
open Ndn.Net.Spec

/-! ### C97: the text of a FaceUri -/

/-- Parsing accepts exactly the texts of the form `scheme://host[:port]/path` and yields exactly their components. -/
theorem C97_parse (s : Bytes) (f : FaceUri) : FaceUri.parse s = (true, f) ↔ UriForm s f := parse_iff s f

/-- A text has at most one reading. -/
theorem C97_unique (s : Bytes) (f g : FaceUri) (hf : UriForm s f) (hg : UriForm s g) : f = g := by
  have h1 := (parse_iff s f).2 hf
  have h2 := (parse_iff s g).2 hg
  rw [h1] at h2
  injection h2

theorem port_out {t p : Bytes} (h : PortText t p) : (if p = [] then [] else ch ':' :: p) = t := by
  rcases h with ⟨rfl, rfl⟩ | ⟨rfl, h, -⟩
  · rfl
  · rw [if_neg h]

theorem toString_of_form {f : FaceUri} {auth : Bytes}
    (ha : (if f.isV6 then ch '[' :: f.host ++ [ch ']'] else f.host) ++ (if f.port = [] then [] else ch ':' :: f.port) = auth) :
    f.toString = f.scheme ++ schemeEnd ++ auth ++ f.path := by
  simp only [FaceUri.toString, ← ha, List.append_assoc]

/-- A text that was accepted is printed back as it was, except for the IPv4-mapped form. -/
theorem C97_text (s : Bytes) (f : FaceUri) (h : FaceUri.parse s = (true, f)) (hm : ¬ Mapped s) : f.toString = s := by
  obtain ⟨auth, hs, h1, h2, h3, h4⟩ := (parse_iff s f).1 h
  rw [hs]
  apply toString_of_form
  obtain ⟨scheme, host, port, path, v⟩ := f
  dsimp only at *
  cases h4 with
  | empty => rfl
  | v6 _ _ t hv ht => rw [port_out ht]; simp
  | mapped _ _ t hv ht => exact absurd ⟨scheme, _, t, path, by rw [hs], h1, hv⟩ hm
  | plain _ _ t hv ht hno => rw [port_out ht]; simp

theorem dotted_plain {h : Bytes} (hd : DottedQuad h) :
    Some1 (· ≠ ch ':') h ∧ ¬ ∃ h', V6Host h' ∧ h = ch '[' :: h' ++ [ch ']'] := by
  obtain ⟨hne, hc⟩ := dotted_chars hd
  have hnot : ∀ x, ¬ (Digit x ∨ x = ch '.') → x ∉ h := fun x hx hm => hx (hc x hm)
  refine ⟨⟨hne, fun c hm he => ?_⟩, ?_⟩
  · subst he
    exact hnot _ (by simp only [Digit]; decide) hm
  · rintro ⟨h', -, rfl⟩
    exact hnot (ch '[') (by simp only [Digit]; decide) (by simp)

/-- What was parsed and printed parses back to the same FaceUri. -/
theorem C97_roundtrip (s : Bytes) (f : FaceUri) (h : FaceUri.parse s = (true, f)) :
    FaceUri.parse f.toString = (true, f) := by
  obtain ⟨auth, hs, h1, h2, h3, h4⟩ := (parse_iff s f).1 h
  apply (parse_iff _ _).2
  obtain ⟨scheme, host, port, path, v⟩ := f
  dsimp only at *
  cases h4 with
  | empty => exact ⟨[], toString_of_form rfl, h1, h2, h3, .empty⟩
  | v6 _ _ t hv ht =>
    exact ⟨_, toString_of_form (by simp only [port_out ht]; simp), h1, h2, h3, .v6 _ _ _ hv ht⟩
  | mapped _ _ t hv ht =>
    obtain ⟨hp1, hp2⟩ := dotted_plain hv
    refine ⟨host ++ t, toString_of_form (by simp only [port_out ht]; rfl), h1, ?_, h3, .plain _ _ _ hp1 ht hp2⟩
    intro c hc
    apply h2
    simp only [List.mem_append, List.mem_cons] at hc ⊢
    rcases hc with hc | hc
    · exact Or.inl (Or.inr hc)
    · exact Or.inr (Or.inr hc)
  | plain _ _ t hv ht hno =>
    exact ⟨_, toString_of_form (by simp only [port_out ht]; simp), h1, h2, h3, .plain _ _ _ hv ht hno⟩

/-- Parsed FaceUris with the same text are equal. -/
theorem C97_injective (s t : Bytes) (f g : FaceUri) (hf : FaceUri.parse s = (true, f)) (hg : FaceUri.parse t = (true, g))
    (h : f.toString = g.toString) : f = g := by
  have h1 := C97_roundtrip s f hf
  have h2 := C97_roundtrip t g hg
  rw [h, h2] at h1
  injection h1 with _ h1
  exact h1.symm

/-- The Ethernet constructor makes a FaceUri whose text reads back as that FaceUri. -/
theorem mac_chars (a : Mac) : ∀ c ∈ a.toString (ch ':'), HexChar c ∨ c = ch ':' := by
  have h2 : ∀ (b : UInt8) (c : UInt8), c ∈ hex2 b → HexChar c ∨ c = ch ':' := by
    intro b c hc
    simp only [hex2, List.mem_cons, List.not_mem_nil, or_false] at hc
    rcases hc with rfl | rfl
    · exact Or.inl ⟨_, Hex.toHexChar_digit _ _⟩
    · exact Or.inl ⟨_, Hex.toHexChar_digit _ _⟩
  intro c hc
  simp only [Mac.toString, List.mem_append, List.mem_cons] at hc
  rcases hc with hc | rfl | hc | rfl | hc | rfl | hc | rfl | hc | rfl | hc
  · exact h2 _ _ hc
  · exact Or.inr rfl
  · exact h2 _ _ hc
  · exact Or.inr rfl
  · exact h2 _ _ hc
  · exact Or.inr rfl
  · exact h2 _ _ hc
  · exact Or.inr rfl
  · exact h2 _ _ hc
  · exact Or.inr rfl
  · exact h2 _ _ hc

theorem C97_ether (a : Mac) : FaceUri.parse (FaceUri.ofMac a).toString = (true, FaceUri.ofMac a) := by
  apply (parse_iff _ _).2
  refine ⟨ch '[' :: a.toString (ch ':') ++ ch ']' :: [], toString_of_form (by simp [FaceUri.ofMac]), Or.inl ?_, ?_,
    Or.inl rfl, .v6 _ _ _ (Or.inl ⟨by simp [Mac.toString, FaceUri.ofMac], mac_chars a⟩) (Or.inl ⟨rfl, rfl⟩)⟩
  · exact ⟨(by decide : etherText ≠ []), fun c hc => (isWord_iff c).1 (by
      have : ∀ c ∈ etherText, isWord c = true := by decide
      exact this c hc)⟩
  · intro c hc
    simp only [List.mem_append, List.mem_cons, List.not_mem_nil, or_false] at hc
    rcases hc with (rfl | hc) | rfl
    · decide
    · exact (hexchar_ne (mac_chars a c hc)).2.2.1
    · decide

/-! Every other constructor. -/

theorem schemeWord {s : Bytes} (h : s ≠ []) (hs : ∀ c ∈ s, isWord c = true) : Scheme s :=
  Or.inl ⟨h, fun c hc => (isWord_iff c).1 (hs c hc)⟩

theorem dec_port (n : Nat) : Name.dec n ≠ [] ∧ ∀ c ∈ Name.dec n, Digit c :=
  ⟨Name.dec_ne_nil n, fun c hc => Name.dec_digits n c hc⟩

theorem dec_portText (n : Nat) : PortText (ch ':' :: Name.dec n) (Name.dec n) := Or.inr ⟨rfl, dec_port n⟩

theorem digit_ne {c : UInt8} (h : Digit c) : c ≠ ch '/' ∧ c ≠ ch ':' ∧ c ≠ ch '[' := by
  refine ⟨?_, ?_, ?_⟩ <;> (rintro rfl; exact absurd h (by simp only [Digit]; decide))

theorem portText_no_slash {t p : Bytes} (h : PortText t p) : ∀ c ∈ t, c ≠ ch '/' := by
  intro c hc he
  subst he
  exact portText_no h (by decide) (by simp only [Digit]; decide) hc

/-- A FaceUri written without brackets reads back when its host is not empty, has no `:` or `/`, and is not itself an
address in brackets. -/
theorem plain_roundtrip {f : FaceUri} (hs : Scheme f.scheme) (hv : f.isV6 = false) (hpath : f.path = [])
    (hh : Some1 (fun c => c ≠ ch ':' ∧ c ≠ ch '/') f.host) (hno : ¬ ∃ h', V6Host h' ∧ f.host = ch '[' :: h' ++ [ch ']'])
    (hp : f.port = [] ∨ Some1 Digit f.port) : FaceUri.parse f.toString = (true, f) := by
  apply (parse_iff _ _).2
  have ht : PortText (if f.port = [] then [] else ch ':' :: f.port) f.port := by
    split
    · rename_i h
      exact Or.inl ⟨rfl, h⟩
    · rename_i h
      exact Or.inr ⟨rfl, hp.resolve_left h⟩
  refine ⟨_, toString_of_form rfl, hs, ?_, Or.inl hpath, ?_⟩
  · intro c hc
    simp only [hv, Bool.false_eq_true, if_false] at hc
    rcases List.mem_append.1 hc with hc | hc
    · exact (hh.2 c hc).2
    · exact portText_no_slash ht c hc
  · simp only [hv, Bool.false_eq_true, if_false]
    exact .plain _ _ _ ⟨hh.1, fun c hc => (hh.2 c hc).1⟩ ht hno

theorem C97_fd (fd : Int) : FaceUri.parse (FaceUri.fromFd fd).toString = (true, FaceUri.fromFd fd) := by
  have hd := dec_port fd.natAbs
  refine plain_roundtrip (schemeWord (s := fdText) (by decide) (by decide)) rfl rfl ?_ ?_ (Or.inl rfl)
  · simp only [FaceUri.fromFd, intText]
    split
    · refine ⟨by simp, ?_⟩
      intro c hc
      simp only [List.mem_cons] at hc
      rcases hc with rfl | hc
      · decide
      · exact ⟨(digit_ne (hd.2 c hc)).2.1, (digit_ne (hd.2 c hc)).1⟩
    · exact ⟨hd.1, fun c hc => ⟨(digit_ne (hd.2 c hc)).2.1, (digit_ne (hd.2 c hc)).1⟩⟩
  · rintro ⟨h', -, he⟩
    simp only [FaceUri.fromFd, intText] at he
    split at he
    · simp at he
    · have : ch '[' ∈ Name.dec fd.natAbs := by rw [he]; simp
      exact (digit_ne (hd.2 _ this)).2.2 rfl

/-- A network interface name without `:`, `/` and brackets. -/
theorem C97_dev_partial (ifname : Bytes) (hne : ifname ≠ []) (hc : ∀ c ∈ ifname, c ≠ ch ':' ∧ c ≠ ch '/' ∧ c ≠ ch '[') :
    FaceUri.parse (FaceUri.fromDev ifname).toString = (true, FaceUri.fromDev ifname) := by
  refine plain_roundtrip (schemeWord (s := devText) (by decide) (by decide)) rfl rfl ⟨hne, fun c h => ⟨(hc c h).1, (hc c h).2.1⟩⟩ ?_
    (Or.inl rfl)
  rintro ⟨h', -, he⟩
  have : ch '[' ∈ ifname := by
    have he' : ifname = ch '[' :: h' ++ [ch ']'] := he
    rw [he']; simp
  exact (hc _ this).2.2 rfl

def C97_dev_claim : Prop :=
  ∀ ifname : Bytes, ifname ≠ [] → (∀ c ∈ ifname, ¬ White c ∧ c ≠ ch '/') →
    FaceUri.parse (FaceUri.fromDev ifname).toString = (true, FaceUri.fromDev ifname)

/-- An interface alias such as `e:1` is a valid interface name, but its FaceUri reads back as host `e` and port `1`. -/
theorem C97_dev_counterexample : ¬ C97_dev_claim := by
  intro h
  have := h [ch 'e', ch ':', ch '1'] (by decide) (by
    intro c hc
    rw [← isSpace_iff]
    have : ∀ c ∈ [ch 'e', ch ':', ch '1'], ¬ isSpace c = true ∧ c ≠ ch '/' := by decide
    exact this c hc)
  exact absurd this (by decide +kernel)

theorem C97_udpdev_partial {A : Type} (ip : Ip A) (a : A) (port : UInt16) (ifname : Bytes) (hne : ifname ≠ [])
    (hc : ∀ c ∈ ifname, c ≠ ch ':' ∧ c ≠ ch '/' ∧ c ≠ ch '[') :
    FaceUri.parse (FaceUri.fromUdpDev ip a port ifname).toString = (true, FaceUri.fromUdpDev ip a port ifname) := by
  have hw : ∀ x : UInt8, x = ch '4' ∨ x = ch '6' →
      Scheme [ch 'u', ch 'd', ch 'p', x, ch '+', ch 'd', ch 'e', ch 'v'] := by
    intro x hx
    refine Or.inr ⟨[ch 'u', ch 'd', ch 'p', x], [ch 'd', ch 'e', ch 'v'], rfl, ⟨by simp, ?_⟩, by simp, ?_⟩
    · intro c hc
      rw [← isWord_iff]
      rcases hx with rfl | rfl
      · exact (by decide : ∀ c ∈ [ch 'u', ch 'd', ch 'p', ch '4'], isWord c = true) c hc
      · exact (by decide : ∀ c ∈ [ch 'u', ch 'd', ch 'p', ch '6'], isWord c = true) c hc
    · intro c hc
      rw [← isWord_iff]
      exact (by decide : ∀ c ∈ [ch 'd', ch 'e', ch 'v'], isWord c = true) c hc
  refine plain_roundtrip ?_ rfl rfl ⟨hne, fun c h => ⟨(hc c h).1, (hc c h).2.1⟩⟩ ?_ (Or.inr (dec_port _))
  · simp only [FaceUri.fromUdpDev]
    split
    · exact hw _ (Or.inl rfl)
    · exact hw _ (Or.inr rfl)
  · rintro ⟨h', -, he⟩
    have : ch '[' ∈ ifname := by
      have he' : ifname = ch '[' :: h' ++ [ch ']'] := he
      rw [he']; simp
    exact (hc _ this).2.2 rfl

/-- Sockets with an absolute path without `?`. -/
theorem C97_unix_partial (path : Bytes) (hp : path.head? = some (ch '/')) (hq : ∀ c ∈ path, c ≠ ch '?') :
    FaceUri.parse (FaceUri.ofUnix path).toString = (true, FaceUri.ofUnix path) := by
  apply (parse_iff _ _).2
  exact ⟨[], toString_of_form rfl, schemeWord (s := unixText) (by decide) (by decide), by simp, Or.inr ⟨hp, hq⟩, .empty⟩

def C97_unix_claim : Prop :=
  ∀ path : Bytes, path ≠ [] → FaceUri.parse (FaceUri.ofUnix path).toString = (true, FaceUri.ofUnix path)

/-- A relative path, such as `s`, is taken for a host; a path with `?`, such as `/?`, is rejected. -/
theorem C97_unix_counterexample : ¬ C97_unix_claim ∧ (FaceUri.parse (FaceUri.ofUnix [ch '/', ch '?']).toString).1 = false := by
  constructor
  · intro h
    exact absurd (h [ch 's'] (by decide)) (by decide +kernel)
  · decide +kernel

variable {A : Type}

/-- The UDP and TCP constructors, for addresses whose text is unambiguous. -/
theorem C97_endpoint_partial (ip : Ip A) (hip : IpOk ip) (a : A) (ha : Plain ip a) (port : UInt16) (scheme : Bytes)
    (hs : Scheme scheme) :
    FaceUri.parse (FaceUri.ofEndpointScheme ip a port scheme).toString =
      (true, FaceUri.ofEndpointScheme ip a port scheme) := by
  cases h4 : ip.isV4 a with
  | true =>
    have hd := hip.v4 a h4
    obtain ⟨h1, h2⟩ := dotted_plain hd
    refine plain_roundtrip hs (by simp [FaceUri.ofEndpointScheme, h4]) rfl ⟨h1.1, fun c hc => ⟨h1.2 c hc, ?_⟩⟩ h2
      (Or.inr (dec_port _))
    intro he
    subst he
    exact absurd ((dotted_chars hd).2 _ hc) (by simp only [Digit]; decide)
  | false =>
    have hv : V6Host (ip.text a) := by
      rcases ha with ha | ⟨-, ha⟩ | ⟨-, x, z, hx, h1, h2, -⟩
      · rw [h4] at ha; simp at ha
      · exact Or.inl ha
      · exact Or.inr ⟨x, z, hx, h1, h2.1, fun c hc => ⟨(h2.2 c hc).1, (h2.2 c hc).2.1, (h2.2 c hc).2.2.1⟩⟩
    apply (parse_iff _ _).2
    refine ⟨ch '[' :: ip.text a ++ ch ']' :: (ch ':' :: Name.dec port.toNat), toString_of_form ?_, hs, ?_, Or.inl rfl, ?_⟩
    · simp [FaceUri.ofEndpointScheme, h4, Name.dec_ne_nil]
    · intro c hc
      simp only [List.mem_append, List.mem_cons] at hc
      rcases hc with (rfl | hc) | rfl | rfl | hc
      · decide
      · rcases hv with hv | ⟨x, z, hx, h1, h2⟩
        · exact (hexchar_ne (hv.2 c hc)).2.2.1
        · rw [hx] at hc
          simp only [List.mem_append, List.mem_cons] at hc
          rcases hc with hc | rfl | hc
          · exact (hexchar_ne (h1.2 c hc)).2.2.1
          · decide
          · exact (h2.2 c hc).2.1
      · decide
      · decide
      · exact (digit_ne ((dec_port _).2 c hc)).1
    · have : (FaceUri.ofEndpointScheme ip a port scheme).isV6 = true := by simp [FaceUri.ofEndpointScheme, h4]
      rw [this]
      exact .v6 _ _ _ hv (dec_portText _)

theorem ofEndpoint_eq (ip : Ip A) (base : Bytes) (a : A) (port : UInt16) :
    FaceUri.ofEndpoint ip base a port =
      FaceUri.ofEndpointScheme ip a port (base ++ [if ip.isV4 a then ch '4' else ch '6']) := rfl

theorem base_scheme {base : Bytes} (hb : base = udpText ∨ base = tcpText) (b : Bool) :
    Scheme (base ++ [if b then ch '4' else ch '6']) := by
  rcases hb with rfl | rfl <;> cases b <;> exact schemeWord (by decide) (by decide)

theorem C97_udp_tcp_partial (ip : Ip A) (hip : IpOk ip) (a : A) (ha : Plain ip a) (port : UInt16) (base : Bytes)
    (hb : base = udpText ∨ base = tcpText) :
    FaceUri.parse (FaceUri.ofEndpoint ip base a port).toString = (true, FaceUri.ofEndpoint ip base a port) := by
  rw [ofEndpoint_eq]
  exact C97_endpoint_partial ip hip a ha port _ (base_scheme hb _)

/-- A few addresses with the texts the address library gives them. -/
inductive Toy where
  | v4 | v4mc | v6 | ll | llz | mapped | compat
deriving DecidableEq, Repr

/-- `1.2.3.4`, `224.0.0.1`, `::1`, `fe80::1`, `fe80::1%e0`, `::ffff:1.2.3.4` and `::1.2.3.4`. -/
def Toy.text : Toy → Bytes
  | .v4 => [ch '1', ch '.', ch '2', ch '.', ch '3', ch '.', ch '4']
  | .v4mc => [ch '2', ch '2', ch '4', ch '.', ch '0', ch '.', ch '0', ch '.', ch '1']
  | .v6 => [ch ':', ch ':', ch '1']
  | .ll => [ch 'f', ch 'e', ch '8', ch '0', ch ':', ch ':', ch '1']
  | .llz => [ch 'f', ch 'e', ch '8', ch '0', ch ':', ch ':', ch '1', ch '%', ch 'e', ch '0']
  | .mapped => [ch ':', ch ':', ch 'f', ch 'f', ch 'f', ch 'f', ch ':', ch '1', ch '.', ch '2', ch '.', ch '3', ch '.', ch '4']
  | .compat => [ch ':', ch ':', ch '1', ch '.', ch '2', ch '.', ch '3', ch '.', ch '4']

def Toy.all : List Toy := [.v4, .v4mc, .v6, .ll, .llz, .mapped, .compat]

def toyIp : Ip Toy where
  make s := Toy.all.find? (fun a => a.text == s)
  text := Toy.text
  isV4 a := a == .v4 || a == .v4mc
  isMulticast a := a == .v4mc
  isLinkLocal a := a == .ll || a == .llz

theorem toyIp_ok : IpOk toyIp where
  make_text a := by cases a <;> decide
  v4 a h := by
    cases a
    · exact ⟨[ch '1'], [ch '2'], [ch '3'], [ch '4'], rfl,
        ⟨by decide, by simp [Digit]⟩, ⟨by decide, by simp [Digit]⟩, ⟨by decide, by simp [Digit]⟩, ⟨by decide, by simp [Digit]⟩⟩
    · exact ⟨[ch '2', ch '2', ch '4'], [ch '0'], [ch '0'], [ch '1'], rfl,
        ⟨by decide, by simp [Digit]⟩, ⟨by decide, by simp [Digit]⟩, ⟨by decide, by simp [Digit]⟩, ⟨by decide, by simp [Digit]⟩⟩
    all_goals exact absurd h (by decide)

/-- Every endpoint. -/
def C97_endpoint_claim : Prop :=
  ∀ (A : Type) (ip : Ip A), IpOk ip → ∀ (a : A) (port : UInt16),
    FaceUri.parse (FaceUri.ofEndpoint ip udpText a port).toString = (true, FaceUri.ofEndpoint ip udpText a port)

/-- The FaceUri of an IPv4-mapped endpoint reads back as an IPv4 host with scheme `udp6`; that of an IPv4-compatible
address, such as `::1.2.3.4`, is rejected by the parser. -/
theorem C97_endpoint_counterexample :
    ¬ C97_endpoint_claim ∧ (FaceUri.parse (FaceUri.ofEndpoint toyIp udpText .compat 1).toString).1 = false := by
  constructor
  · intro h
    exact absurd (h Toy toyIp toyIp_ok .mapped 1) (by decide +kernel)
  · decide +kernel

/-- The hypotheses are met: a UDP endpoint with a zone. -/
theorem toy_llz_plain : Plain toyIp .llz := by
  refine Or.inr (Or.inr ⟨by decide, [ch 'f', ch 'e', ch '8', ch '0', ch ':', ch ':', ch '1'], [ch 'e', ch '0'], rfl, ?_, ?_, ?_⟩)
  · refine ⟨by decide, fun c hc => (isHexColon_iff c).1 ?_⟩
    exact (by decide : ∀ c ∈ [ch 'f', ch 'e', ch '8', ch '0', ch ':', ch ':', ch '1'], isHexColon c = true) c hc
  · refine ⟨by decide, fun c hc => ?_⟩
    show ¬ White c ∧ _
    rw [← isSpace_iff]
    exact (by decide : ∀ c ∈ [ch 'e', ch '0'], ¬ isSpace c = true ∧ c ≠ ch '/' ∧ c ≠ ch ':' ∧ c ≠ ch '%') c hc
  · rintro ⟨w, -, he⟩
    have : ch 'e' = ch '2' := (List.cons.inj he).1
    exact absurd this (by decide)

example : FaceUri.parse (FaceUri.ofEndpoint toyIp udpText .llz 6363).toString =
    (true, FaceUri.ofEndpoint toyIp udpText .llz 6363) :=
  C97_udp_tcp_partial toyIp toyIp_ok .llz toy_llz_plain 6363 udpText (Or.inl rfl)

/-- `tcp4://h:80/p` is accepted, with these components. -/
example : UriForm [ch 't', ch 'c', ch 'p', ch '4', ch ':', ch '/', ch '/', ch 'h', ch ':', ch '8', ch '0', ch '/', ch 'p']
    { scheme := [ch 't', ch 'c', ch 'p', ch '4'], host := [ch 'h'], port := [ch '8', ch '0'], path := [ch '/', ch 'p'] } :=
  (C97_parse _ _).1 (by decide +kernel)

/-! ### C98: comparison -/

theorem strLt_irrefl (s : Bytes) : strLt s s = false := by
  induction s with
  | nil => rfl
  | cons c s ih => simp [strLt, ih]

theorem strLt_trans {s t u : Bytes} (h1 : strLt s t = true) (h2 : strLt t u = true) : strLt s u = true := by
  induction s generalizing t u with
  | nil =>
    cases u with
    | nil => cases t <;> simp [strLt] at h1 h2
    | cons => rfl
  | cons a s ih =>
    cases t with
    | nil => simp [strLt] at h1
    | cons b t =>
      cases u with
      | nil => simp [strLt] at h2
      | cons c u =>
        simp only [strLt] at h1 h2 ⊢
        by_cases hab : a.toNat < b.toNat
        · by_cases hbc : b.toNat < c.toNat
          · rw [if_pos (by omega)]
          · rw [if_neg hbc] at h2
            split at h2
            · simp at h2
            · rw [if_pos (by omega)]
        · rw [if_neg hab] at h1
          split at h1
          · simp at h1
          · by_cases hbc : b.toNat < c.toNat
            · rw [if_pos (by omega)]
            · rw [if_neg hbc] at h2
              split at h2
              · simp at h2
              · rw [if_neg (by omega), if_neg (by omega)]
                exact ih h1 h2

theorem strLt_total {s t : Bytes} (h1 : strLt s t = false) (h2 : strLt t s = false) : s = t := by
  induction s generalizing t with
  | nil => cases t with
    | nil => rfl
    | cons => simp [strLt] at h1
  | cons a s ih =>
    cases t with
    | nil => simp [strLt] at h2
    | cons b t =>
      simp only [strLt] at h1 h2
      by_cases hab : a.toNat < b.toNat
      · rw [if_pos hab] at h1; simp at h1
      · by_cases hba : b.toNat < a.toNat
        · rw [if_pos hba] at h2; simp at h2
        · rw [if_neg hab, if_neg hba] at h1
          rw [if_neg hba, if_neg hab] at h2
          have : a = b := UInt8.toNat_inj.1 (by omega)
          rw [this, ih h1 h2]

/-- `==` holds exactly for FaceUris with the same components. -/
theorem C98_eq (f g : FaceUri) : f.eq g = true ↔ f = g := by
  obtain ⟨a, b, c, d, e⟩ := f
  obtain ⟨a', b', c', d', e'⟩ := g
  simp only [FaceUri.eq, Bool.and_eq_true, beq_iff_eq, FaceUri.mk.injEq]
  constructor
  · rintro ⟨⟨⟨⟨h1, h2⟩, h3⟩, h4⟩, h5⟩; exact ⟨h2, h3, h4, h5, h1⟩
  · rintro ⟨h2, h3, h4, h5, h1⟩; exact ⟨⟨⟨⟨h1, h2⟩, h3⟩, h4⟩, h5⟩

/-- A lexicographic step of `std::tie`. -/
theorem lex_step {α : Type} (r : α → α → Bool) (a b : α) (x : Bool) :
    (if r a b then true else if r b a then false else x) = true ↔ r a b = true ∨ (r a b = false ∧ r b a = false ∧ x = true) := by
  cases r a b <;> cases r b a <;> simp

/-- What `<` has to mean: the components are compared one after the other. -/
def Less (f g : FaceUri) : Prop :=
  strLt f.scheme g.scheme = true ∨ (f.scheme = g.scheme ∧
  ((f.isV6 = false ∧ g.isV6 = true) ∨ (f.isV6 = g.isV6 ∧
  (strLt f.host g.host = true ∨ (f.host = g.host ∧
  (strLt f.port g.port = true ∨ (f.port = g.port ∧ strLt f.path g.path = true)))))))

theorem lt_iff (f g : FaceUri) : f.lt g = true ↔ Less f g := by
  have hs : ∀ (s t : Bytes) (P : Prop), (strLt s t = true ∨ (strLt s t = false ∧ strLt t s = false ∧ P)) ↔
      (strLt s t = true ∨ (s = t ∧ P)) := by
    intro s t P
    constructor
    · rintro (h | ⟨h1, h2, h3⟩)
      · exact Or.inl h
      · exact Or.inr ⟨strLt_total h1 h2, h3⟩
    · rintro (h | ⟨rfl, h⟩)
      · exact Or.inl h
      · exact Or.inr ⟨strLt_irrefl _, strLt_irrefl _, h⟩
  have hb : ∀ (x y : Bool) (P : Prop), ((!x && y) = true ∨ ((!x && y) = false ∧ (!y && x) = false ∧ P)) ↔
      ((x = false ∧ y = true) ∨ (x = y ∧ P)) := by
    intro x y P
    cases x <;> cases y <;> simp
  unfold FaceUri.lt Less
  rw [lex_step strLt, lex_step (fun x y : Bool => !x && y) f.isV6 g.isV6, lex_step strLt, lex_step strLt, hs, hb, hs, hs]

/-- `<` is a strict total order that agrees with `==`: irreflexive, transitive, and exactly one of `f < g`, `f == g`,
`g < f` holds. -/
theorem C98_irrefl (f : FaceUri) : f.lt f = false := by
  cases h : f.lt f with
  | false => rfl
  | true =>
    rw [lt_iff, Less] at h
    simp [strLt_irrefl] at h

theorem C98_trans (f g h : FaceUri) (h1 : f.lt g = true) (h2 : g.lt h = true) : f.lt h = true := by
  rw [lt_iff] at *
  unfold Less at *
  have key : ∀ {s t u : Bytes} {P Q R : Prop}, (P → Q → R) →
      (strLt s t = true ∨ (s = t ∧ P)) → (strLt t u = true ∨ (t = u ∧ Q)) → (strLt s u = true ∨ (s = u ∧ R)) := by
    intro s t u P Q R hpq ha hb
    rcases ha with ha | ⟨rfl, ha⟩ <;> rcases hb with hb | ⟨rfl, hb⟩
    · exact Or.inl (strLt_trans ha hb)
    · exact Or.inl ha
    · exact Or.inl hb
    · exact Or.inr ⟨rfl, hpq ha hb⟩
  have keyb : ∀ {s t u : Bool} {P Q R : Prop}, (P → Q → R) →
      ((s = false ∧ t = true) ∨ (s = t ∧ P)) → ((t = false ∧ u = true) ∨ (t = u ∧ Q)) →
      ((s = false ∧ u = true) ∨ (s = u ∧ R)) := by
    intro s t u P Q R hpq ha hb
    rcases ha with ⟨rfl, rfl⟩ | ⟨rfl, ha⟩ <;> rcases hb with ⟨hb, hb'⟩ | ⟨rfl, hb⟩
    · simp at hb
    · exact Or.inl ⟨rfl, rfl⟩
    · exact Or.inl ⟨hb, hb'⟩
    · exact Or.inr ⟨rfl, hpq ha hb⟩
  exact key (keyb (key (key strLt_trans))) h1 h2

theorem C98_trichotomy (f g : FaceUri) :
    (f.lt g = true ∧ f.eq g = false ∧ g.lt f = false) ∨ (f.lt g = false ∧ f.eq g = true ∧ g.lt f = false) ∨
    (f.lt g = false ∧ f.eq g = false ∧ g.lt f = true) := by
  have tot : f.lt g = false → g.lt f = false → f = g := by
    intro h1 h2
    have h1' : ¬ Less f g := fun h => by rw [(lt_iff f g).2 h] at h1; simp at h1
    have h2' : ¬ Less g f := fun h => by rw [(lt_iff g f).2 h] at h2; simp at h2
    obtain ⟨a, b, c, d, e⟩ := f
    obtain ⟨a', b', c', d', e'⟩ := g
    simp only [Less, not_or, not_and] at h1' h2'
    have ha : a = a' := strLt_total (by simpa using h1'.1) (by simpa using h2'.1)
    have h1 := h1'.2 ha
    have h2 := h2'.2 ha.symm
    have he : e = e' := by
      cases e <;> cases e' <;> simp_all
    have h1 := h1.2 he
    have h2 := h2.2 he.symm
    have hb : b = b' := strLt_total (by simpa using h1.1) (by simpa using h2.1)
    have h1 := h1.2 hb
    have h2 := h2.2 hb.symm
    have hc : c = c' := strLt_total (by simpa using h1.1) (by simpa using h2.1)
    have h1 := h1.2 hc
    have h2 := h2.2 hc.symm
    have hd : d = d' := strLt_total (by simpa using h1) (by simpa using h2)
    rw [ha, hb, hc, hd, he]
  cases h1 : f.lt g with
  | true =>
    refine Or.inl ⟨rfl, ?_, ?_⟩
    · cases he : f.eq g with
      | false => rfl
      | true =>
        rw [C98_eq] at he
        subst he
        rw [C98_irrefl] at h1
        simp at h1
    · cases h2 : g.lt f with
      | false => rfl
      | true =>
        have := C98_trans f g f h1 h2
        rw [C98_irrefl] at this
        simp at this
  | false =>
    cases h2 : g.lt f with
    | false => exact Or.inr (Or.inl ⟨rfl, (C98_eq f g).2 (tot h1 h2), rfl⟩)
    | true =>
      refine Or.inr (Or.inr ⟨rfl, ?_, rfl⟩)
      cases he : f.eq g with
      | false => rfl
      | true =>
        rw [C98_eq] at he
        subst he
        rw [C98_irrefl] at h2
        simp at h2

/-- `dev://a` sorts before `dev://b`. -/
example : (FaceUri.fromDev [ch 'a']).lt (FaceUri.fromDev [ch 'b']) = true := by decide

/-! ### C99: Ethernet addresses -/

/-- Every text of six octets joined by one separator is read as that address, on every C library. -/
theorem C99_read (zx : Bool) (s : Bytes) (a : Mac) (h : MacText s a) : Mac.fromString zx s = a := fromString_text zx h

/-- What is printed with `:` or `-` reads back, and distinct addresses have distinct texts. -/
theorem C99_roundtrip (zx : Bool) (sep : UInt8) (a : Mac) (h : sep = ch ':' ∨ sep = ch '-') :
    Mac.fromString zx (a.toString sep) = a := fromString_text zx (toString_text sep a h)

theorem C99_injective (sep : UInt8) (a b : Mac) (h : sep = ch ':' ∨ sep = ch '-') (he : a.toString sep = b.toString sep) :
    a = b := by
  rw [← C99_roundtrip true sep a h, he, C99_roundtrip true sep b h]

/-- C99: the broadcast address has all bits set, the null address none; group addresses are those whose first octet is odd,
the broadcast address among them. -/
theorem C99_kinds (a : Mac) :
    (a.isBroadcast = true ↔ ∀ x ∈ [a.a0, a.a1, a.a2, a.a3, a.a4, a.a5], x = 255) ∧
    (a.isNull = true ↔ ∀ x ∈ [a.a0, a.a1, a.a2, a.a3, a.a4, a.a5], x = 0) ∧
    (a.isMulticast = true ↔ a.a0.toNat % 2 = 1) ∧ (a.isBroadcast = true → a.isMulticast = true) := by
  obtain ⟨a0, a1, a2, a3, a4, a5⟩ := a
  have hm : (Mac.mk a0 a1 a2 a3 a4 a5).isMulticast = true ↔ a0.toNat % 2 = 1 := by
    simp only [Mac.isMulticast, decide_eq_true_eq, ne_eq]
    rw [← UInt8.toNat_inj, UInt8.toNat_and]
    show ¬ (a0.toNat &&& 1 = 0) ↔ _
    rw [Nat.and_one_is_mod]; omega
  refine ⟨by simp [Mac.isBroadcast], by simp [Mac.isNull, Mac.null], hm, ?_⟩
  intro h
  rw [hm]
  simp [Mac.isBroadcast] at h
  rw [h.1]; decide

/-- Nothing else is read as an address. -/
def C99_only_claim : Prop := ∀ (zx : Bool) (s : Bytes), Mac.fromString zx s ≠ Mac.null → MacText s (Mac.fromString zx s)

/-- White space and signs are accepted: ` 1:2:3:4:5:6` is read as `01:02:03:04:05:06`, and `1--2-3-4-5-6`, which has an
empty octet, as `01-fe-03-04-05-06`. -/
theorem C99_only_counterexample : ¬ C99_only_claim ∧
    Mac.fromString true [ch '1', ch '-', ch '-', ch '2', ch '-', ch '3', ch '-', ch '4', ch '-', ch '5', ch '-', ch '6'] =
      ⟨1, 254, 3, 4, 5, 6⟩ := by
  constructor
  · intro h
    obtain ⟨sep, s0, s1, s2, s3, s4, s5, hsep, hs, h0, -⟩ :=
      h true [ch ' ', ch '1', ch ':', ch '2', ch ':', ch '3', ch ':', ch '4', ch ':', ch '5', ch ':', ch '6'] (by decide +kernel)
    rcases h0 with ⟨c, d, rfl, hc, -⟩ | ⟨c₁, d₁, c₂, d₂, rfl, h1, -⟩
    · have : ch ' ' = c := (List.cons.inj hs).1
      subst this
      exact absurd (hexDigit_facts hc).1 (by decide)
    · have : ch ' ' = c₁ := (List.cons.inj hs).1
      subst this
      exact absurd (hexDigit_facts h1).1 (by decide)
  · decide +kernel

/-- For texts of hexadecimal digits and colons (which is all that a FaceUri in brackets can contain) exactly the texts of
six octets are read as an address other than the null address. -/
theorem C99_only_partial (zx : Bool) (s : Bytes) (a : Mac) (hs : ∀ c ∈ s, HexChar c ∨ c = ch ':') (ha : a ≠ Mac.null) :
    Mac.fromString zx s = a ↔ MacText s a := by
  constructor
  · rintro rfl
    exact fromString_inv (fun c hc => (isHexColon_iff c).2 (hs c hc)) ha
  · exact fromString_text zx

/-- `1:2:3:4:5:aB` is such a text. -/
example : MacText [ch '1', ch ':', ch '2', ch ':', ch '3', ch ':', ch '4', ch ':', ch '5', ch ':', ch 'a', ch 'B']
    ⟨1, 2, 3, 4, 5, 171⟩ := by
  refine (C99_only_partial true _ _ ?_ (by decide)).1 (by decide +kernel)
  intro c hc
  rw [← isHexColon_iff]
  exact (by decide : ∀ c ∈ [ch '1', ch ':', ch '2', ch ':', ch '3', ch ':', ch '4', ch ':', ch '5', ch ':', ch 'a', ch 'B'],
    isHexColon c = true) c hc

end Ndn.Net
