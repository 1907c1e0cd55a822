import Verif.Secure.CertSpec
import Verif.Secure.Props
import Verif.Cert.Props
import Verif.Bag.Props
/-
C146: certificates made with a key chain, at their receivers.
-/
namespace Ndn.Secure
open Ndn.Name Ndn.Tlv Ndn.Block Ndn.Packet Ndn.Verify Ndn.Pib Ndn.Pib.Spec Ndn.KeyChain Ndn.KeyChain.Spec Ndn.Secure.Spec

variable {σ K : Type} {b : Backend σ} {R : σ → View → Prop} {A : View → PName → Prop} {C : Crypto K}

/-- Decoding a validity period looks at the type and the value. -/
private theorem period_decode (other : Bytes → Cert.Parsed) {b x : Raw} {nb na : Int} (h : IsPeriod b nb na) (h1 : x.type = b.type) (h2 : x.value = b.value) :
    ∃ v, Cert.Validity.default.wireDecode other x = (.ok, v) ∧ v.notBefore = nb ∧ v.notAfter = na := by
  obtain ⟨h3, h4, h5⟩ := h
  obtain ⟨b', e1, e2⟩ := Cert.C56_roundtrip other ⟨nb, na, none⟩ Cert.Validity.default rfl h3 h4
  rw [h5] at e1
  simp only [Option.some.injEq, Prod.mk.injEq, and_true] at e1
  subst e1
  obtain ⟨a1, y, z, a2, a3, a4, a5, a6, a7, a8, a9⟩ := (Cert.wireDecode_iff _ _ _ _).1 e2
  refine ⟨⟨nb, na, some x.wire⟩, (Cert.wireDecode_iff _ _ _ _).2 ⟨by rw [h1, a1], y, z, by rw [h2]; exact a2, a3, a4, a5, a6, a7, a8, rfl⟩, rfl, rfl⟩

private theorem period_type {b : Raw} {nb na : Int} (h : IsPeriod b nb na) : b.type = 253 := by
  obtain ⟨v, h, -⟩ := period_decode (fun _ => .badCast) h rfl rfl
  exact ((Cert.wireDecode_iff _ _ _ _).1 h).1

private theorem loads {bits : Bytes} (W : Works C) {x : K} (hm : Match C x bits) : loadKey C bits = some (.pub (C.verify bits)) := by
  obtain ⟨sig, -, h⟩ := hm []
  obtain ⟨y, hy⟩ := Option.isSome_iff_exists.1 (W.kind _ _ _ h)
  unfold loadKey
  rw [hy]; rfl

/-- A packet signed as a certificate is one at the receiver. -/
private theorem vouches {n : PName} {pub : Bytes} {o : CertOpts} {nb na : Int} {si : SigInfo} {bits : Bytes} {d : DObj}
    (hload : loadKey C bits = some (.pub (C.verify bits)))
    (hp : IsPeriod o.validity nb na) (hv : ∃ x, findOther 253 si.others = some x ∧ x.type = o.validity.type ∧ x.value = o.validity.value)
    (hn : ∃ i, KeyName i n) (hc : IsCert d)
    (hs : SignedAs (.reset (certFields n pub o)) si (fun u sig => C.verify bits u sig = true) d) :
    ∃ w, d.wire = some w ∧ Vouches C n pub o nb na bits w := by
  obtain ⟨wr, u, sg, c1, c2, c3⟩ := signedAs_check hs
  obtain ⟨sig, w, blk, es, u', h1, h2, h3, h4, h5, h6, h7⟩ := hs
  rw [c1] at h2
  injection h2 with h2; subst h2
  refine ⟨wr, c1, ?_⟩
  obtain ⟨i, id, hi⟩ := hn
  have hname : d.f.name = n ++ [o.issuer, ⟨54, writeNonNegativeInteger o.version⟩] := by rw [h1]; rfl
  have hcn : Bag.CertNamed d.f.name i id o.issuer ⟨54, writeNonNegativeInteger o.version⟩ := by
    unfold Bag.CertNamed
    rw [hname, hi]
    simp [keyComp]
  have hrec : receiveCert wr = some ⟨d.f, some blk.wire, []⟩ := by
    unfold receiveCert
    rw [h3]
    dsimp only
    obtain ⟨ht, es', g1, g2⟩ := (dataDecode_iff _ _).1 h4
    unfold Bag.certOfBlock
    rw [(DObj.wireDecode_iff (DObj.init []) ⟨d.f, some blk.wire, []⟩ blk).2 ⟨ht, es', d.f, g1, g2, rfl⟩]
    exact (Bag.C104_accept _ _).2 ⟨rfl, ⟨_, _, _, _, hcn⟩, hc.2⟩
  have hpub : publicKeyOf ⟨d.f, some blk.wire, []⟩ = pub := by
    unfold publicKeyOf
    rw [h1]; rfl
  have hver : checkData (verify (loadKey C bits)) wr = some true := by
    rw [hload, c3, verify_one]
    exact congrArg some c2
  have hval : ∀ other, ∃ v, validityOf other ⟨d.f, some blk.wire, []⟩ = some v ∧ v.notBefore = nb ∧ v.notAfter = na := by
    intro other
    obtain ⟨x, x1, x2, x3⟩ := hv
    obtain ⟨v, v1, v2, v3⟩ := period_decode other hp x2 x3
    refine ⟨v, ?_, v2, v3⟩
    unfold validityOf
    rw [h1]
    dsimp only
    rw [x1]
    dsimp only
    rw [v1]
  have hok : ∀ other now, certValid other ⟨d.f, some blk.wire, []⟩ now = some (decide (Within nb na now)) := by
    intro other now
    obtain ⟨v, v1, v2, v3⟩ := hval other
    unfold certValid
    rw [v1, Option.bind_some, Cert.C56_isValid v now (by rw [v2]; exact hp.1) (by rw [v3]; exact hp.2.1), v2, v3]
    rfl
  obtain ⟨p1, p2, p3, p4, p5, p6⟩ := Bag.C104_parts _ _ _ _ _ hcn
  refine ⟨fun other => ⟨_, hrec, hpub, hname, ?_, p4, ?_, hval other, fun now => ⟨_, hok other now, by simp⟩⟩, hver, fun other now dw => ?_⟩
  · show Bag.extractKeyName d.f.name = some n
    rw [p6, hi]; rfl
  · intro i' id' e
    rw [hi] at e
    obtain ⟨e1, e2⟩ := List.append_inj' e rfl
    simp only [List.cons.injEq, and_true] at e2
    subst e1
    obtain ⟨-, rfl⟩ := e2
    exact ⟨p5, p3⟩
  · unfold trusts
    rw [hrec]
    dsimp only
    rw [hver, hok, hpub]
    have : verifyCert C.sha (some (loadKey C pub)) = verify (loadKey C pub) := rfl
    rw [this]
    simp

private theorem issues {kw : KWorld K} {n : PName} {pub : Bytes} {p : SInfo K} {o : CertOpts} {r : Except Err KRes} (W : Works C)
    (hc : Consistent C kw) (hn : ∃ i, KeyName i n) (h : Certifies C kw n pub p o r) : Issues C kw n pub p o r := by
  intro nb na k loc bits h1 h2 h3 h4 h5 h6
  obtain ⟨d, rfl, h7, h8⟩ := h.made h2 k loc bits h3 h4 h5 h6
  obtain ⟨x, -, hm⟩ := hc.1 k bits h4
  have ht : o.validity.type = 253 := period_type h1
  obtain ⟨y, y1, y2, y3⟩ := (C22_custom_add ⟨none, p.info⟩ o.validity).1
  rw [ht] at y1
  obtain ⟨w, w1, w2⟩ := vouches (si := keyInfo C { p with info := (SObj.addCustom ⟨none, p.info⟩ o.validity).s } bits loc) (loads W hm) h1 ⟨y, y1, y2, y3⟩ hn h7 h8
  exact ⟨d, w, rfl, w1, w2⟩

private theorem issueCalls (F : Faithful b R A) (W : Works C) {P : KWorld K → KOp K → Prop} (hP : ∀ kw op, P kw op → KFitsA C A kw op) (ops : List (KOp K))
    {s : St σ K} {w : World} (hs : Sim R s.pib w) (inv : Inv C w s.tpm) :
    Follows C b P (fun kw op r _ _ => IssueCalls C kw op r) (kwOf w s.tpm) s ops := by
  refine follows F W hP ?_ ops hs inv
  intro s w op r hs inv _ s' w' hs' inv' hk _
  have co := (F.rep hs.rep).coh
  refine ⟨?_, ?_⟩
  · rintro h p o k bits rfl hh hb
    have hh' : w.hs h = .alive (.key k) := hh
    simp only [KStep, hh'] at hk
    obtain ⟨bits', h1, h2⟩ := hk
    rw [show w.v.key k = some bits from hb] at h1
    have := Option.some.inj h1
    subst this
    obtain ⟨i, hi, -⟩ := co.parent k (by rw [hb]; rfl)
    exact issues W (consistent_of inv) ⟨i, hi⟩ (certifies co (consistent_of inv) ⟨i, hi⟩ h2)
  · rintro req p o k rfl h1 h2
    simp only [KStep] at hk
    rw [if_pos ⟨h1, k, h2⟩] at hk
    obtain ⟨k', h3, h4⟩ := hk
    have := certName_inj h2 h3; subst this
    exact issues W (consistent_of inv) h2.2 (certifies co (consistent_of inv) h2.2 h4)

private theorem fitsAny (kw : KWorld K) (op : KOp K) (h : KFits C kw op) : KFitsA C (fun _ _ => True) kw op := ⟨h, fun _ _ _ _ _ => trivial⟩

private theorem fitsMem (kw : KWorld K) (op : KOp K) (h : KFitsMemory C kw op) : KFitsA C (fun v k => DropsDefault v (.removeKey k)) kw op :=
  ⟨h.1, fun x k n e hn => by subst e; exact h.2 n hn⟩

/-- **C146** over `pib-sqlite3`: whatever was called before, a certificate made with `makeCertificate` is one for its receivers,
valid in its period, and they trust with it the packets signed with the key it was made for. -/
theorem C146_sqlite_partial (W : Works C) (ops : List (KOp K)) :
    Follows C sqlite (KFits C) (fun kw op r _ _ => IssueCalls C kw op r) KWorld.init (St.init sqlite) ops :=
  issueCalls sqlite_faithful W fitsAny ops (s := St.init sqlite) (start_sim sqlite_faithful) Inv.init

/-- **C146** over `pib-memory`. -/
theorem C146_memory_partial (W : Works C) (ops : List (KOp K)) :
    Follows C memory (KFitsMemory C) (fun kw op r _ _ => IssueCalls C kw op r) KWorld.init (St.init memory) ops :=
  issueCalls memory_faithful W fitsMem ops (s := St.init memory) (start_sim memory_faithful) Inv.init

/-- **C146**: the certificate of a new key, made by `createKey`, vouches for the key to receivers who know its public key. -/
theorem C146_self_signed (W : Works C) {kw kw' : KWorld K} {h : Nat} {i : PName} {id : KeyId} {e : Env K} {x : KRes} {nb na : Int}
    (hh : kw.pib.hs h = .alive (.ident i)) (hs : KStep C kw (.createKey h id e) (.ok x) kw') (hp : IsPeriod e.validity nb na) :
    ∃ kh k pub c, x = .key kh ∧ kw'.pib.hs kh = .alive (.key k) ∧ kw'.pib.v.key k = some pub ∧ kw'.pib.v.cert c.name = some c ∧
      ((∀ u sig, C.verify pub u sig = true → Ndn.Packet.Spec.DataWF { certFields k pub ⟨selfComp, e.version, 3600000, e.validity⟩ with
          sigInfo := selfInfo C pub k e.validity, sigValue := some (binaryBlock 23 sig) }) →
        Vouches C k pub ⟨selfComp, e.version, 3600000, e.validity⟩ nb na pub c.rest) := by
  obtain ⟨kh, k, pub, c, h1, h2, h3, h4, h5, h6, h7, h8⟩ := C96_self_signed hh hs
  refine ⟨kh, k, pub, c, h1, h2, h4, h5, fun hw => ?_⟩
  obtain ⟨d', h9, h10, -⟩ := h8 hw
  have ht : e.validity.type = 253 := period_type hp
  have hm := W.pair _ _ h3
  have hn : ∃ i, KeyName i k := h6.2
  have hc : IsCert d' := by
    obtain ⟨sig, wr, blk, es, u, e1, -⟩ := h9
    unfold IsCert
    rw [e1]
    refine ⟨⟨k, ⟨_, _, rfl⟩, hn⟩, rfl, ?_⟩
    show 0 < ({ MetaInfo.init with type := 2, freshness := (3600000 : Int).toNat } : MetaInfo).getFreshness
    decide
  obtain ⟨w, w1, w2⟩ := vouches (o := ⟨selfComp, e.version, 3600000, e.validity⟩) (loads W hm) hp ⟨e.validity, by simp [findOther, selfInfo, ht], rfl, rfl⟩ hn hc h9
  rw [h10] at w1
  have := Option.some.inj w1
  subst this
  exact w2

/-- The packets received as certificates. -/
private theorem receiveCert_iff (w : Bytes) (c : DObj) :
    receiveCert w = some c ↔ ∃ b, fromBuffer w = some (b, []) ∧ dataDecode b = some c.f ∧ c = ⟨c.f, some b.wire, []⟩ ∧
      (∃ i k s v, Bag.CertNamed c.f.name i k s v) ∧ c.f.minfo.type = 2 ∧ 0 < c.f.minfo.getFreshness := by
  unfold receiveCert
  split
  · rename_i b hb
    unfold Bag.certOfBlock
    constructor
    · intro h
      split at h
      · rename_i d hd
        obtain ⟨rfl, h2⟩ := (Bag.C104_accept _ _).1 h
        obtain ⟨ht, es, f, g1, g2, rfl⟩ := (DObj.wireDecode_iff _ _ _).1 hd
        exact ⟨b, hb, (dataDecode_iff _ _).2 ⟨ht, es, g1, g2⟩, rfl, h2⟩
      · cases h
    · rintro ⟨b', hb', h1, h2, h3⟩
      rw [hb] at hb'
      simp only [Option.some.injEq, Prod.mk.injEq, and_true] at hb'
      subst hb'
      obtain ⟨ht, es, g1, g2⟩ := (dataDecode_iff _ _).1 h1
      rw [(DObj.wireDecode_iff (DObj.init []) c b).2 ⟨ht, es, c.f, g1, g2, h2⟩]
      exact (Bag.C104_accept _ _).2 ⟨rfl, h3⟩
  · rename_i hn
    constructor
    · intro h; cases h
    · rintro ⟨b, hb, -⟩
      exact absurd hb (hn b)

private theorem certValid_iff (other : Bytes → Cert.Parsed) (c : DObj) (now : Int) :
    certValid other c now = some true ↔ ∃ nb na pre b post x y, c.f.sigInfo.others = pre ++ b :: post ∧ (∀ e ∈ pre, e.type ≠ 253) ∧ b.type = 253 ∧
      Ndn.Block.Spec.ReadsAs b.value [x, y] ∧ x.type = 254 ∧ x.value.length = 15 ∧ y.type = 255 ∧ y.value.length = 15 ∧
      Cert.decodeTime other x.value = (.ok, nb) ∧ Cert.decodeTime other y.value = (.ok, na) ∧ Within nb na now := by
  have hex : ∀ b, findOther 253 c.f.sigInfo.others = some b ↔ _ := fun b => Bag.C104_extension c 253 b
  unfold certValid validityOf
  constructor
  · intro h
    split at h
    · cases h
    · rename_i b hb
      obtain ⟨pre, post, h1, h2, h3⟩ := (hex b).1 hb
      split at h
      · rename_i v hv
        obtain ⟨-, r1, r2, -⟩ := Cert.C56_accepted _ _ _ _ hv
        obtain ⟨-, x, y, a2, a3, a4, a5, a6, a7, a8, -⟩ := (Cert.wireDecode_iff _ _ _ _).1 hv
        rw [Option.bind_some, Cert.C56_isValid v now r1 r2] at h
        refine ⟨v.notBefore, v.notAfter, pre, b, post, x, y, h1, h3, h2, parseElements_iff.1 a2, a3, a4, a5, a6, a7, a8, ?_⟩
        exact of_decide_eq_true (Option.some.inj h)
      · cases h
  · rintro ⟨nb, na, pre, b, post, x, y, h1, h2, h3, h4, h5, h6, h7, h8, h9, h10, h11⟩
    rw [(hex b).2 ⟨pre, post, h1, h3, h2⟩]
    dsimp only
    have hv := (Cert.wireDecode_iff other Cert.Validity.default ⟨nb, na, some b.wire⟩ b).2 ⟨h3, x, y, parseElements_iff.2 h4, h5, h6, h7, h8, h9, h10, rfl⟩
    obtain ⟨-, r1, r2, -⟩ := Cert.C56_accepted _ _ _ _ hv
    rw [hv]
    dsimp only
    rw [Option.bind_some, Cert.C56_isValid _ now r1 r2]
    exact congrArg some (decide_eq_true h11)

private theorem load_iff (bits w : Bytes) :
    checkData (verify (loadKey C bits)) w = some true ↔
      ∃ f u sig, Ndn.Verify.Spec.DataParts w f u sig ∧ (C.keyType bits).isSome ∧ C.verify bits u sig = true := by
  unfold loadKey
  cases hk : C.keyType bits with
  | none =>
    constructor
    · intro h; exact absurd h (C116_no_key w)
    · rintro ⟨f, u, sig, -, h, -⟩; cases h
  | some t =>
    rw [Option.map_some, C116_data]
    simp [Ndn.Pipe.VKey.accepts]

/-- **C146**: of arbitrary octets, a receiver trusts exactly this: the first are a certificate which the key of the issuer verifies
and which is valid now, the second a packet which the public key in it verifies. -/
theorem C146_exact (other : Bytes → Cert.Parsed) (anchor : Bytes) (now : Int) (cw dw : Bytes) :
    trusts C other anchor now cw dw = true ↔
      ∃ fc uc sc fd ud sd pub nb na, Ndn.Verify.Spec.DataParts cw fc uc sc ∧ Ndn.Verify.Spec.DataParts dw fd ud sd ∧ CertFields other fc pub nb na ∧
        Within nb na now ∧ (C.keyType anchor).isSome ∧ C.verify anchor uc sc = true ∧ (C.keyType pub).isSome ∧ C.verify pub ud sd = true := by
  unfold trusts
  constructor
  · intro h
    split at h
    · cases h
    · rename_i c hc
      simp only [Bool.and_eq_true, decide_eq_true_eq] at h
      obtain ⟨⟨h1, h2⟩, h3⟩ := h
      obtain ⟨b, b1, b2, b3, b4, b5, b6⟩ := (receiveCert_iff _ _).1 hc
      obtain ⟨fc, uc, sc, p1, p2, p3⟩ := (load_iff _ _).1 h1
      obtain ⟨fd, ud, sd, q1, q2, q3⟩ := (load_iff _ _).1 h3
      obtain ⟨nb, na, pre, e, post, x, y, c1, c2, c3, c4, c5, c6, c7, c8, c9, c10, c11⟩ := (certValid_iff _ _ _).1 h2
      have : fc = c.f := by
        obtain ⟨v, n, rest, sv, po, g1, g2, -⟩ := p1
        rw [fromBuffer_form g1] at b1
        simp only [Option.some.injEq, Prod.mk.injEq, and_true] at b1
        rw [← b1, g2] at b2
        exact Option.some.inj b2
      subst this
      exact ⟨c.f, uc, sc, fd, ud, sd, publicKeyOf c, nb, na, p1, q1,
        ⟨b4, b5, b6, rfl, pre, e, post, x, y, c1, c2, c3, c4, c5, c6, c7, c8, c9, c10⟩, c11, p2, p3, q2, q3⟩
  · rintro ⟨fc, uc, sc, fd, ud, sd, pub, nb, na, p1, q1, ⟨b4, b5, b6, rfl, pre, e, post, x, y, c1, c2, c3, c4, c5, c6, c7, c8, c9, c10⟩, c11, p2, p3, q2, q3⟩
    have hr : ∃ wb, receiveCert cw = some ⟨fc, some wb, []⟩ := by
      obtain ⟨v, n, rest, sv, po, g1, g2, -⟩ := id p1
      exact ⟨_, (receiveCert_iff _ _).2 ⟨_, fromBuffer_form g1, g2, rfl, b4, b5, b6⟩⟩
    obtain ⟨wb, hr⟩ := hr
    rw [hr]
    simp only [Bool.and_eq_true, decide_eq_true_eq]
    refine ⟨⟨(load_iff _ _).2 ⟨fc, uc, sc, p1, p2, p3⟩, ?_⟩, (load_iff _ _).2 ⟨fd, ud, sd, q1, q2, q3⟩⟩
    exact (certValid_iff _ _ _).2 ⟨nb, na, pre, e, post, x, y, c1, c2, c3, c4, c5, c6, c7, c8, c9, c10, c11⟩

/-! ### Examples -/

/-- From the first to the fifth second of 1970. -/
def fiveSeconds : Raw := ((fromBuffer (Cert.Validity.wireEncode ⟨0, 5, none⟩).1).map (·.1)).getD (binaryBlock 253 [])

example : IsPeriod fiveSeconds 0 5 := ⟨by decide, by decide, by decide +kernel⟩

/-- The key of `/b`, `[8]`, issues a certificate for the key `[7]` of `/a`. -/
def issuedBy (o : CertOpts) : Option Bytes :=
  match (kop toy32 sqlite (.makeCertFor ⟨[⟨8, [97]⟩, keyComp, ⟨8, [5]⟩, ⟨8, [1]⟩, ⟨54, [1]⟩], [7], []⟩ SInfo.init o)
    (krun toy32 sqlite [.createIdentity [⟨8, [98]⟩] .random ⟨8, [6], 1, binaryBlock 253 []⟩] (St.init sqlite)).2).1 with
  | .ok (.data d) => d.wire
  | _ => none

/-- A packet signed with the key of `/a`. -/
def signedBy : Option Bytes :=
  match (kop toy32 sqlite (.sign (.reset Ndn.Packet.sampleData) SInfo.init) (krun toy32 sqlite startId (St.init sqlite)).2).1 with
  | .ok (.data d) => d.wire
  | _ => none

/-- Whether the packet is trusted at an instant, with the key of `/b` or another one. -/
def trusted (anchor : Bytes) (now : Int) : Option Bool :=
  match issuedBy ⟨⟨8, [73]⟩, 9, 1000, fiveSeconds⟩, signedBy with
  | some c, some d => some (trusts toy32 (fun _ => .badCast) anchor now c d)
  | _, _ => none

example : trusted [8] 5000000000 = some true ∧ trusted [8] 5000000001 = some false ∧ trusted [8] (-1) = some false ∧ trusted [9] 1 = some false := by
  decide +kernel

/-- A period of no element ends in an exception at the receiver, and the packet is not trusted. -/
example : ((issuedBy ⟨⟨8, [73]⟩, 9, 1000, binaryBlock 253 []⟩).bind receiveCert).map (certValid (fun _ => .badCast) · 1) = some none := by
  decide +kernel

end Ndn.Secure
