import Verif.KeyChain.SignLemmas
/-
The properties of the key chain: C93 (what is signed and with which key), C94 (the PIB and the TPM belong together), C95
(after a crash too) and C96 (certificates made).
-/
namespace Ndn.KeyChain
open Ndn.Name Ndn.Tlv Ndn.Block Ndn.Packet Ndn.Packet.Spec Ndn.Pib Ndn.Pib.Spec Ndn.KeyChain.Spec

variable {σ K : Type} {b : Backend σ} {R : σ → View → Prop} {A : View → PName → Prop} {C : Crypto K}

private theorem fitsAny (kw : KWorld K) (op : KOp K) (h : KFits C kw op) : KFitsA C (fun _ _ => True) kw op := ⟨h, fun _ _ _ _ _ => trivial⟩

private theorem fitsMem (kw : KWorld K) (op : KOp K) (h : KFitsMemory C kw op) : KFitsA C (fun v k => DropsDefault v (.removeKey k)) kw op :=
  ⟨h.1, fun x k n e hn => by subst e; exact h.2 n hn⟩

/-! ## C94: the PIB and the TPM -/

private theorem agrees (F : Faithful b R A) {s s' : St σ K} {w w' : World} {op : KOp K} {r : Except Err KRes} (hs : Sim R s'.pib w')
    (inv : Inv C w' s'.tpm) (h : KStep C (kwOf w s.tpm) op r (kwOf w' s'.tpm)) : Agrees C b (kwOf w s.tpm) op r s' (kwOf w' s'.tpm) :=
  ⟨h, stores_of F hs, consistent_of inv, usable_of (F.rep hs.rep) rfl inv.cache inv.t⟩

private theorem history (F : Faithful b R A) (W : Works C) {P : KWorld K → KOp K → Prop} (hP : ∀ kw op, P kw op → KFitsA C A kw op) (ops : List (KOp K))
    {s : St σ K} {w : World} (hs : Sim R s.pib w) (inv : Inv C w s.tpm) : Follows C b P (Agrees C b) (kwOf w s.tpm) s ops :=
  follows F W hP (fun _ _ _ _ _ _ _ _ _ hs' inv' hk _ => agrees F hs' inv' hk) ops hs inv

/-- **C94** claimed for every history. -/
def C94_claim {σ : Type} (b : Backend σ) : Prop :=
  ∀ (K : Type) (C : Crypto K), Works C → ∀ ops, Usable C b (krun C b ops (St.init b)).2

/-- **C94** over `pib-sqlite3`: each call has an outcome the specification allows, the PIB and the TPM store what it says,
and every key of the PIB can sign. The part left out are the calls ruled out by `KFits`. -/
theorem C94_sqlite_partial (W : Works C) (ops : List (KOp K)) :
    Follows C sqlite (KFits C) (Agrees C sqlite) KWorld.init (St.init sqlite) ops :=
  history sqlite_faithful W fitsAny ops (s := St.init sqlite) (start_sim sqlite_faithful) Inv.init

/-- **C94** over `pib-memory`. -/
theorem C94_memory_partial (W : Works C) (ops : List (KOp K)) :
    Follows C memory (KFitsMemory C) (Agrees C memory) KWorld.init (St.init memory) ops :=
  history memory_faithful W fitsMem ops (s := St.init memory) (start_sim memory_faithful) Inv.init

/-! ### What the specification says -/

/-- **C94**: creating an identity that has a default key with a default certificate changes nothing. -/
theorem C94_create_again {kw kw' : KWorld K} {n : PName} {id : KeyId} {e : Env K} {r : Except Err KRes} (hr : Ready kw.pib.v n)
    (h : KStep C kw (.createIdentity n id e) r kw') :
    (∃ x, r = .ok (.ident x) ∧ kw'.pib.hs x = .alive (.ident n)) ∧ kw'.pib.v = kw.pib.v ∧ kw'.priv = kw.priv := by
  obtain ⟨hi, k, c, h1, h2⟩ := hr
  rcases h with ⟨x, a1, a2, a3, a4, a5⟩ | ⟨er, -, hn, -⟩
  · unfold IdentMade at a5
    rw [h1] at a5
    dsimp only at a5
    rw [h2] at a5
    exact ⟨⟨x, a1, a2⟩, a5.2.trans (withIdent_of hi), a5.1⟩
  · exact absurd ⟨hi, k, c, h1, h2⟩ hn

/-- **C94**: an identity that is created can sign at once, and nothing is lost if it cannot be created. -/
theorem C94_create_ready {kw kw' : KWorld K} {n : PName} {id : KeyId} {e : Env K} {r : Except Err KRes}
    (h : KStep C kw (.createIdentity n id e) r kw') :
    (∃ x, r = .ok (.ident x) ∧ kw'.pib.hs x = .alive (.ident n) ∧ Ready kw'.pib.v n) ∨
      (∃ er, r = .error er) ∧ ¬ IdentPossible C kw.pib.v n id e kw.priv ∧ Extended kw kw' := by
  rcases h with ⟨x, a1, a2, a3, a4, a5⟩ | ⟨er, a1, hn, hp, a2⟩
  · exact .inl ⟨x, a1, a2, a4⟩
  · exact .inr ⟨⟨er, a1⟩, hp, a2⟩

/-- **C94**: a key is created unless the key generated has no public key, all names for it are in use or its certificate
cannot be encoded. -/
theorem C94_create_key {kw kw' : KWorld K} {h : Nat} {i : PName} {id : KeyId} {e : Env K} {r : Except Err KRes} (hh : kw.pib.hs h = .alive (.ident i))
    (hp : Possible C i id e kw.priv) (hs : KStep C kw (.createKey h id e) r kw') :
    ∃ kh k, r = .ok (.key kh) ∧ kw'.pib.hs kh = .alive (.key k) ∧ NameFor C i id e.gen e.rnd k ∧ kw.priv k = none ∧ kw'.priv k = some (some e.gen) ∧
      kw'.pib.v.key k = C.pub e.gen := by
  simp only [KStep, hh] at hs
  rcases hs with ⟨kh, k, a1, a2, -, p, c, b1, b2, b3, b4, b5, b6, b7, b8, b9⟩ | ⟨er, -, hn, -⟩
  · refine ⟨kh, k, a1, a2, b1, b3, by rw [b9]; simp [upd], ?_⟩
    rw [b4, b8]; simp only [View.addCert, View.addKey, upd, if_true]
    split
    · rw [b6]
    · rfl
  · exact absurd hp hn

/-- **C94**: deleting an identity leaves nothing of it: neither the identity nor a key below it, in the PIB, nor a private
key that it had, in the TPM. Everything else stays. -/
theorem C94_delete_identity {kw kw' : KWorld K} {h : Nat} {i : PName} {r : Except Err KRes} (hh : kw.pib.hs h = .alive (.ident i))
    (hs : KStep C kw (.deleteIdentity h) r kw') :
    r = .ok .done ∧ kw'.pib.v.ident i = false ∧ (∀ k, KeyName i k → kw'.pib.v.key k = none) ∧
      (∀ k, KeyName i k → (kw.pib.v.key k).isSome → kw'.priv k = none) ∧
      (∀ j, j ≠ i → kw'.pib.v.ident j = kw.pib.v.ident j) ∧
      (∀ k, ¬ KeyName i k → kw'.pib.v.key k = kw.pib.v.key k ∧ kw'.priv k = kw.priv k) := by
  simp only [KStep, hh] at hs
  obtain ⟨rfl, rfl⟩ := hs
  refine ⟨rfl, ?_, ?_, ?_, ?_, ?_⟩
  · simp [View.removeIdent, upd]
  · intro k hk; simp [View.removeIdent, (isKeyOf_iff _ _).mpr hk]
  · intro k hk hs; simp only [hk, hs, and_self, if_true]
  · intro j hj; simp [View.removeIdent, upd, hj]
  · intro k hk; exact ⟨by simp only [View.removeIdent]; rw [if_neg (fun h => hk ((isKeyOf_iff _ _).mp h))], by simp only [hk, false_and, if_false]⟩

/-- **C94**: deleting a key removes it from the PIB and from the TPM, and nothing else. -/
theorem C94_delete_key {kw kw' : KWorld K} {h k : Nat} {i n : PName} {r : Except Err KRes} (hh : kw.pib.hs h = .alive (.ident i))
    (hk : kw.pib.hs k = .alive (.key n)) (hn : KeyName i n) (hs : KStep C kw (.deleteKey h k) r kw') :
    r = .ok .done ∧ kw'.pib.v.key n = none ∧ kw'.priv n = none ∧
      ∀ n', n' ≠ n → kw'.pib.v.key n' = kw.pib.v.key n' ∧ kw'.priv n' = kw.priv n' := by
  simp only [KStep, hh, hk, hn, if_true] at hs
  obtain ⟨rfl, rfl⟩ := hs
  refine ⟨rfl, ?_, ?_, ?_⟩
  · simp [View.removeKey, upd]
  · simp [upd]
  · intro n' hn'; exact ⟨by simp [View.removeKey, upd, hn'], by simp [upd, hn']⟩

/-- **C94**: a bag is imported as a whole or not at all. -/
theorem C94_import {kw kw' : KWorld K} {c : Crt} {k : PName} {enc pw msg : Bytes} {r : Except Err KRes} (hc : CertName k c.name)
    (hs : KStep C kw (.importSafeBag c enc pw msg) r kw') :
    (r = .ok .done ∧ Importable C kw.priv k c enc pw msg ∧ kw'.pib.v.key k = some c.pub ∧ kw'.pib.v.cert c.name = some c ∧
      ∃ x, C.load enc pw = some x ∧ kw'.priv k = some (some x)) ∨
    (r = .error .chain ∧ ¬ Importable C kw.priv k c enc pw msg ∧ Unchanged kw kw') := by
  obtain ⟨k', hk, h⟩ := hs
  have := certName_inj hk hc; subst this
  split at h
  · rename_i hi
    obtain ⟨x, h1, h2, h3, h4, h5, h6⟩ := h
    refine .inl ⟨h2, hi, ?_, ?_, x, h1, ?_⟩
    · rw [h5]; simp [View.addCert, View.addKey, upd]
    · rw [h5]; simp [View.addCert, upd]
    · rw [h6]; simp [upd]
  · rename_i hi
    exact .inr ⟨h.1, hi, h.2⟩

/-! ## C93: what is signed and with which key -/

private theorem signs (F : Faithful b R A) (W : Works C) {P : KWorld K → KOp K → Prop} (hP : ∀ kw op, P kw op → KFitsA C A kw op) (ops : List (KOp K))
    {s : St σ K} {w : World} (hs : Sim R s.pib w) (inv : Inv C w s.tpm) :
    Follows C b P (fun kw op r _ kw' => ∀ d p, op = .sign d p → Signs C kw d p r kw') (kwOf w s.tpm) s ops := by
  refine follows F W hP ?_ ops hs inv
  rintro s w op r hs inv - s' w' hs' inv' hk - d p rfl
  obtain ⟨rs, h1, rfl⟩ := hk
  exact signs_of (F.rep hs.rep).coh (consistent_of inv) h1

/-- **C93** over `pib-sqlite3`. -/
theorem C93_sqlite_partial (W : Works C) (ops : List (KOp K)) :
    Follows C sqlite (KFits C) (fun kw op r _ kw' => ∀ d p, op = .sign d p → Signs C kw d p r kw') KWorld.init (St.init sqlite) ops :=
  signs sqlite_faithful W fitsAny ops (s := St.init sqlite) (start_sim sqlite_faithful) Inv.init

/-- **C93** over `pib-memory`. -/
theorem C93_memory_partial (W : Works C) (ops : List (KOp K)) :
    Follows C memory (KFitsMemory C) (fun kw op r _ kw' => ∀ d p, op = .sign d p → Signs C kw d p r kw') KWorld.init (St.init memory) ops :=
  signs memory_faithful W fitsMem ops (s := St.init memory) (start_sim memory_faithful) Inv.init

/-- **C93**: what is asked for names one key and one locator. -/
theorem C93_signer_unique {w : World} {p : SInfo K} {k loc k' loc' : PName} (h : Signer w p k loc) (h' : Signer w p k' loc') : k = k' ∧ loc = loc' :=
  signer_unique h h'

/-! ## C96: certificates -/

theorem certifies {kw kw' : KWorld K} {n : PName} {pub : Bytes} {p : SInfo K} {o : CertOpts} {r : Except Err KRes}
    (co : Coherent kw.pib.v) (hc : Consistent C kw) (hn : ∃ i, KeyName i n) (h : CertStep C kw n pub p o r kw') : Certifies C kw n pub p o r := by
  unfold CertStep at h
  constructor
  · intro hf k loc bits h1 h2 h3 h4
    rw [if_neg (by omega)] at h
    obtain ⟨rs, h5, h6⟩ := h
    have h1' : Signer kw.pib { p with info := (SObj.addCustom ⟨none, p.info⟩ o.validity).s } k loc := by
      cases h1 with
      | default a1 a2 a3 => exact .default a1 a2 a3
      | ident a1 a2 a3 => exact .ident a1 a2 a3
      | key a1 a2 => exact .key a1 a2
      | cert a1 a2 a3 => exact .cert a1 a2 a3
    obtain ⟨d, e, hd⟩ := (signs_of co hc h5).key k loc bits h1' h2 h3 h4
    cases rs with
    | error e' => cases e
    | ok d' =>
      injection e with e; injection e with e; subst e
      dsimp only at h6
      have hic : IsCert d' := by
        obtain ⟨sig, wr, blk, es, u, e1, -⟩ := hd
        obtain ⟨i, hi⟩ := hn
        unfold IsCert
        rw [e1]
        refine ⟨⟨n, ⟨_, _, rfl⟩, i, hi⟩, rfl, ?_⟩
        show 0 < ({ MetaInfo.init with type := 2, freshness := o.freshness.toNat } : MetaInfo).getFreshness
        simp only [MetaInfo.getFreshness]
        split <;> omega
      rw [if_pos hic] at h6
      exact ⟨d', h6, hic, hd⟩
  · intro hf
    rw [if_pos hf] at h
    exact h.1
  · rintro x rfl
    split at h
    · cases h.1
    · obtain ⟨rs, -, h6⟩ := h
      cases rs with
      | error e => cases h6
      | ok d =>
        dsimp only at h6
        split at h6
        · rename_i hi
          injection h6 with h6; subst h6
          exact ⟨d, rfl, hi⟩
        · cases h6

/-- What making certificates promises. -/
def CertCalls (C : Crypto K) (kw : KWorld K) (op : KOp K) (r : Except Err KRes) : Prop :=
  (∀ h p o k bits, op = .makeCert h p o → kw.pib.hs h = .alive (.key k) → kw.pib.v.key k = some bits → Certifies C kw k bits p o r) ∧
  (∀ req p o k, op = .makeCertFor req p o → (C.keyType req.pub).isSome → CertName k req.name → Certifies C kw k req.pub p o r) ∧
  (∀ req p o, op = .makeCertFor req p o → C.keyType req.pub = none ∨ (∀ k, ¬ CertName k req.name) → r = .error .invalid)

private theorem certCalls (F : Faithful b R A) (W : Works C) {P : KWorld K → KOp K → Prop} (hP : ∀ kw op, P kw op → KFitsA C A kw op) (ops : List (KOp K))
    {s : St σ K} {w : World} (hs : Sim R s.pib w) (inv : Inv C w s.tpm) :
    Follows C b P (fun kw op r _ _ => CertCalls C kw op r) (kwOf w s.tpm) s ops := by
  refine follows F W hP ?_ ops hs inv
  intro s w op r hs inv _ s' w' hs' inv' hk _
  have co := (F.rep hs.rep).coh
  refine ⟨?_, ?_, ?_⟩
  · rintro h p o k bits rfl hh hb
    have hh' : w.hs h = .alive (.key k) := hh
    simp only [KStep, hh'] at hk
    obtain ⟨bits', h1, h2⟩ := hk
    rw [show w.v.key k = some bits from hb] at h1; injection h1 with h1; subst h1
    obtain ⟨i, hi, -⟩ := co.parent k (by rw [hb]; rfl)
    exact certifies co (consistent_of inv) ⟨i, hi⟩ h2
  · rintro req p o k rfl h1 h2
    simp only [KStep] at hk
    rw [if_pos ⟨h1, k, h2⟩] at hk
    obtain ⟨k', h3, h4⟩ := hk
    have := certName_inj h2 h3; subst this
    exact certifies co (consistent_of inv) h2.2 h4
  · rintro req p o rfl h1
    simp only [KStep] at hk
    rw [if_neg] at hk
    · exact hk.1
    · rintro ⟨h2, k, h3⟩
      rcases h1 with h1 | h1
      · rw [h1] at h2; cases h2
      · exact h1 k h3

/-- **C96** over `pib-sqlite3`: `makeCertificate` gives a certificate for the key, with a signature that verifies with the
public key of the issuer, or it throws. -/
theorem C96_sqlite_partial (W : Works C) (ops : List (KOp K)) :
    Follows C sqlite (KFits C) (fun kw op r _ _ => CertCalls C kw op r) KWorld.init (St.init sqlite) ops :=
  certCalls sqlite_faithful W fitsAny ops (s := St.init sqlite) (start_sim sqlite_faithful) Inv.init

/-- **C96** over `pib-memory`. -/
theorem C96_memory_partial (W : Works C) (ops : List (KOp K)) :
    Follows C memory (KFitsMemory C) (fun kw op r _ _ => CertCalls C kw op r) KWorld.init (St.init memory) ops :=
  certCalls memory_faithful W fitsMem ops (s := St.init memory) (start_sim memory_faithful) Inv.init

/-- **C96**: a key that `createKey` made has a certificate, a packet that is signed with this key. -/
theorem C96_self_signed {kw kw' : KWorld K} {h : Nat} {i : PName} {id : KeyId} {e : Env K} {x : KRes} (hh : kw.pib.hs h = .alive (.ident i))
    (hs : KStep C kw (.createKey h id e) (.ok x) kw') :
    ∃ kh k pub c, x = .key kh ∧ kw'.pib.hs kh = .alive (.key k) ∧ C.pub e.gen = some pub ∧ kw'.pib.v.key k = some pub ∧
      kw'.pib.v.cert c.name = some c ∧ CertName k c.name ∧ c.pub = pub ∧
      let d := DObj.reset (certFields k pub ⟨selfComp, e.version, 3600000, e.validity⟩)
      ((∀ u sig, C.verify pub u sig = true →
          DataWF { d.f with sigInfo := selfInfo C pub k e.validity, sigValue := some (binaryBlock 23 sig) }) →
        ∃ d', SignedAs d (selfInfo C pub k e.validity) (fun u sig => C.verify pub u sig = true) d' ∧ d'.wire = some c.rest ∧ c.name = d.f.name) := by
  simp only [KStep, hh] at hs
  rcases hs with ⟨kh, k, e1, h1, -, p, c, -, -, -, h3, h4, h5, h6, h7, -⟩ | ⟨er, e', -⟩
  · injection e1 with e1; subst e1; subst h5
    refine ⟨kh, k, c.pub, c, rfl, h1, h3, ?_, ?_, h4, rfl, ?_⟩
    · rw [h7]; simp [View.addCert, View.addKey, upd]
    · rw [h7]; simp [View.addCert, upd]
    · intro d hw
      obtain ⟨d', u, sig, a1, a2, a3, a4⟩ := h6
      have := signed_as (ok := fun u sig => C.verify c.pub u sig = true) (hw u sig a2) a1 a2
      refine ⟨d', this, ?_, ?_⟩
      · obtain ⟨sig, wr, blk, es, u, -, h2, -⟩ := this
        rw [a4, h2]; rfl
      · obtain ⟨sig, wr, blk, es, u, h2, -⟩ := this
        rw [a3, h2]
  · cases e'

/-! ## C95: crash points -/

/-- After a crash: the key chain opened on what was stored can use all its keys, and runs in step with the specification
from there on. -/
def Survives (C : Crypto K) (b : Backend σ) (P : KWorld K → KOp K → Prop) (e : σ × List (PName × Option K)) : Prop :=
  Usable C b (reopen b e) ∧ ∃ kw, Stores b kw (reopen b e) ∧ Consistent C kw ∧ ∀ ops, Follows C b P (Agrees C b) kw (reopen b e) ops

/-- **C95** claimed for every call. -/
def C95_claim {σ : Type} (b : Backend σ) (P : {K : Type} → Crypto K → KWorld K → KOp K → Prop) : Prop :=
  ∀ (K : Type) (C : Crypto K), Works C → ∀ ops, Follows C b (P C) (fun _ _ _ s' _ => ∀ e ∈ s'.trail, Usable C b (reopen b e))
    KWorld.init (St.init b) ops

private theorem survives (F : Faithful b R A) (W : Works C) {P : KWorld K → KOp K → Prop} (hP : ∀ kw op, P kw op → KFitsA C A kw op) (ops : List (KOp K))
    {s : St σ K} {w : World} (hs : Sim R s.pib w) (inv : Inv C w s.tpm) :
    Follows C b P (fun _ op _ s' _ => (∀ h, op ≠ .deleteIdentity h) → ∀ e ∈ s'.trail, Survives C b P e) (kwOf w s.tpm) s ops := by
  refine follows F W hP ?_ ops hs inv
  intro s w op r hs inv _ s' w' hs' inv' hk ht hop e he
  obtain ⟨v, h1, h2⟩ := ht e he
  have ht := h2 hop
  refine ⟨usable_reopen (F.rep h1) ht, kwOf (opened v) ⟨e.2, []⟩, stores_of F (s := reopen b e) (reopen_sim F h1), consistent_of (reopen_inv ht), fun ops => ?_⟩
  exact history F W hP ops (s := reopen b e) (reopen_sim F h1) (reopen_inv ht)

/-- **C95** over `pib-sqlite3`: wherever a call other than `deleteIdentity` is cut off, between two accesses to the PIB or
the TPM, the key chain that is opened afterwards works. -/
theorem C95_sqlite_partial (W : Works C) (ops : List (KOp K)) :
    Follows C sqlite (KFits C) (fun _ op _ s' _ => (∀ h, op ≠ .deleteIdentity h) → ∀ e ∈ s'.trail, Survives C sqlite (KFits C) e)
      KWorld.init (St.init sqlite) ops :=
  survives sqlite_faithful W fitsAny ops (s := St.init sqlite) (start_sim sqlite_faithful) Inv.init

/-- **C95** for any back end of the PIB kept across a restart that is written as `pib-memory` is. -/
theorem C95_memory_partial (W : Works C) (ops : List (KOp K)) :
    Follows C memory (KFitsMemory C) (fun _ op _ s' _ => (∀ h, op ≠ .deleteIdentity h) → ∀ e ∈ s'.trail, Survives C memory (KFitsMemory C) e)
      KWorld.init (St.init memory) ops :=
  survives memory_faithful W fitsMem ops (s := St.init memory) (start_sim memory_faithful) Inv.init

/-! ## A key chain for examples -/

/-- Keys from 0 to 127, and HMAC keys above; the public key is the number. -/
def toy : Crypto UInt8 where
  isHmac x := decide (128 ≤ x)
  pub x := if 128 ≤ x then none else some [x]
  keyDigest x := [x]
  load enc pw := if pw = [1] then enc.head? else none
  sign x a m := some [x, UInt8.ofNat m.length, if a = .sha256 then 0 else 1]
  verify p m sig := match p with
    | [x] => decide (x < 128) && decide (sig = [x, UInt8.ofNat m.length, 0])
    | _ => false
  keyType p := match p with
    | [x] => if x < 128 then some .ec else none
    | _ => none
  sha m := [UInt8.ofNat m.length]

theorem toy_works : Works toy where
  pair := by
    intro x p h m
    simp only [toy] at h ⊢
    split at h
    · cases h
    · rename_i hx
      injection h with h; subst h
      refine ⟨_, rfl, ?_⟩
      simp only [if_true, decide_true, Bool.and_true, decide_eq_true_eq]
      exact UInt8.not_le.mp hx
  hmac := by
    intro x h
    simp only [toy, decide_eq_true_eq] at h ⊢
    rw [if_pos h]
  kind := by
    intro p m sig h
    match p, h with
    | [x], h =>
      simp only [toy, Bool.and_eq_true, decide_eq_true_eq] at h ⊢
      rw [if_pos h.1]; rfl
    | [], h => cases h
    | _ :: _ :: _, h => cases h

private def env (g : UInt8) : Env UInt8 := ⟨g, [5], 1, binaryBlock 253 []⟩
private def idA : PName := [⟨8, [97]⟩]
private def kA : PName := idA ++ [keyComp, ⟨8, [5]⟩]
private def certA : PName := kA ++ [selfComp, ⟨54, [1]⟩]
private def packet : DObj := .reset sampleData

/-- The packet in a result. -/
private def dataOf : Except Err KRes → Option DFields
  | .ok (.data d) => some d.f
  | _ => none

private def errOf : Except Err KRes → Option Err
  | .error e => some e
  | _ => none

/-- The state after these calls. -/
private def after {σ : Type} (b : Backend σ) (ops : List (KOp UInt8)) : St σ UInt8 := (krun toy b ops (St.init b)).2

/-! ### C94 does not hold for all calls -/

private theorem not_usable {b : Backend σ} {s : St σ UInt8} {k : PName} {bits : Bytes} (h1 : b.getKeyBits s.pib.db k = .ok bits)
    (h2 : ∀ sig, (tpmSign toy [] k .sha256 s).1 = .ok (some sig) → toy.verify bits [] sig = false) : ¬ Usable toy b s := by
  intro h
  obtain ⟨sig, h3, h4⟩ := h.sign k bits h1 []
  rw [h2 sig h3] at h4; cases h4

/-- A certificate for another public key, made default: it replaces the public key of the key. -/
private def wrongCert : List (KOp UInt8) :=
  [.createIdentity idA .random (env 7), .setDefaultCertificate 1 ⟨kA ++ [⟨8, [120]⟩, ⟨54, [2]⟩], [8], []⟩]

private theorem signOf {r : Except Err (Option Bytes)} {s0 : Bytes} (h : (match r with | .ok x => x | _ => none) = some s0) (sig : Bytes)
    (hs : r = .ok (some sig)) : sig = s0 := by
  subst hs; injection h

/-- setDefaultCertificate replaces the public key stored for a key, which then does not verify its signatures. -/
theorem C94_sqlite_counterexample : ¬ C94_claim sqlite := by
  intro h
  refine not_usable (k := kA) (bits := [8]) (by decide +kernel) ?_ (h UInt8 toy toy_works wrongCert)
  intro sig hs
  rw [signOf (s0 := [7, 0, 0]) (by decide +kernel) sig hs]
  decide +kernel

/-- As with SQLite: setDefaultCertificate replaces the public key stored for a key. -/
theorem C94_memory_counterexample : ¬ C94_claim memory := by
  intro h
  refine not_usable (k := kA) (bits := [8]) (by decide +kernel) ?_ (h UInt8 toy toy_works wrongCert)
  intro sig hs
  rw [signOf (s0 := [7, 0, 0]) (by decide +kernel) sig hs]
  decide +kernel

/-- `createHmacKey` with a prefix that ends in `KEY` replaces the private key of an identity whose identifier is the digest. -/
private def overwritten : List (KOp UInt8) :=
  [.createIdentity idA (.user ⟨8, [200]⟩) (env 7), .createHmacKey (idA ++ [keyComp]) .random (env 200)]

/-- `createHmacKey` replaces the private key of an identity when their names coincide. -/
theorem C94_hmac_overwrites_counterexample :
    ¬ Usable toy sqlite (after sqlite overwritten) ∧
      (krun toy sqlite overwritten (St.init sqlite)).1.map errOf = [none, none] := by
  refine ⟨not_usable (k := idA ++ [keyComp, ⟨8, [200]⟩]) (bits := [7]) (by decide +kernel) ?_, by decide +kernel⟩
  intro sig hs
  rw [signOf (s0 := [200, 0, 0]) (by decide +kernel) sig hs]
  decide +kernel

/-- `createKey` with parameters for HMAC throws, and the key stays in the TPM. -/
theorem C94_hmac_orphan_counterexample :
    (krun toy sqlite [.createIdentity idA .random (env 7), .createKey 0 .random (env 200)] (St.init sqlite)).1.map errOf = [none, some .crypto] ∧
    get (idA ++ [⟨8, [200]⟩]) (after sqlite [.createIdentity idA .random (env 7), .createKey 0 .random (env 200)]).tpm.keys = some (some 200) := by
  constructor <;> decide +kernel

/-! ### C95 does not hold for `deleteIdentity` -/

/-- `deleteIdentity` that stops in the middle leaves keys of the identity in the PIB without a private key in the TPM. -/
theorem C95_sqlite_counterexample : ¬ C95_claim sqlite (fun C => KFits C) := by
  intro h
  have h := h UInt8 toy toy_works [.createIdentity idA .random (env 7), .deleteIdentity 0]
  obtain ⟨kw, -, h⟩ := h (fun _ => ⟨(fun e => by revert e; decide), (fun _ e => by cases e)⟩)
  obtain ⟨kw', h, -⟩ := h trivial
  have e : ∃ e ∈ (kop toy sqlite (.deleteIdentity 0) { (kop toy sqlite (.createIdentity idA .random (env 7)) { St.init sqlite with trail := [] }).2 with trail := [] }).2.trail,
      sqlite.getKeyBits e.1 kA = .ok [7] ∧ get kA e.2 = none := by decide +kernel
  obtain ⟨e, he, h1, h2⟩ := e
  refine not_usable (s := reopen sqlite e) (k := kA) (bits := [7]) h1 ?_ (h e he)
  intro sig hs
  have : (tpmSign toy [] kA .sha256 (reopen sqlite e)).1 = .ok none := by
    unfold tpmSign
    have hf : (tpmFind kA : KM _ UInt8 (Option UInt8)) (reopen sqlite e) = (.ok none, reopen sqlite e) := by
      unfold tpmFind
      rw [show (reopen sqlite e).tpm.cache = [] from rfl, show (reopen sqlite e).tpm.keys = e.2 from rfl, h2]
      rfl
    rw [bind_ok hf]
    rfl
  rw [this] at hs
  injection hs with hs; cases hs

/-! ### C93: what the documentation says otherwise -/

/-- "The specified identity, key, or certificate does not exist": `InvalidSigningInfoError`. -/
def C93_cert_claim : Prop := ∀ (K : Type) (C : Crypto K), Works C → ∀ ops d (p : SInfo K), p.type = .cert →
  sqlite.hasCertificate (krun C sqlite ops (St.init sqlite)).2.pib.db p.name = false →
  ∃ er, (kop C sqlite (.sign d p) (krun C sqlite ops (St.init sqlite)).2).1 = .error er

/-- A certificate that does not exist, of a key that does, is put into the KeyLocator. -/
theorem C93_cert_counterexample : ¬ C93_cert_claim := by
  intro h
  obtain ⟨er, h⟩ := h UInt8 toy toy_works [.createIdentity idA .random (env 7)] packet (SInfo.init.setSigningCertName (kA ++ [⟨8, [120]⟩, ⟨54, [9]⟩])) rfl
    (by decide +kernel)
  have : ((dataOf (kop toy sqlite (.sign packet (SInfo.init.setSigningCertName (kA ++ [⟨8, [120]⟩, ⟨54, [9]⟩])))
    (krun toy sqlite [.createIdentity idA .random (env 7)] (St.init sqlite)).2).1).map (fun f => f.sigInfo.keyLocator)) =
      some (some (.name (kA ++ [⟨8, [120]⟩, ⟨54, [9]⟩]))) := by decide +kernel
  rw [h] at this
  cases this

/-- The SignatureType and KeyLocator of the SignatureInfo given "will be overwritten by KeyChain::sign()". -/
def C93_locator_claim : Prop := ∀ (K : Type) (C : Crypto K), Works C → ∀ ops d (p : SInfo K) d' n,
  (kop C sqlite (.sign d p) (krun C sqlite ops (St.init sqlite)).2).1 = .ok (.data d') → d'.f.sigInfo.keyLocator = some (.name n) →
  sqlite.hasKey (krun C sqlite ops (St.init sqlite)).2.pib.db n = true ∨
    sqlite.hasCertificate (krun C sqlite ops (St.init sqlite)).2.pib.db n = true ∨ p.type = .hmac ∨ p.type = .cert

/-- A KeyLocator given stays. -/
theorem C93_locator_counterexample : ¬ C93_locator_claim := by
  intro h
  have e : ∃ d', (kop toy sqlite (.sign packet { SInfo.init with info := ⟨none, some (.name [⟨8, [120]⟩]), []⟩ }) (after sqlite [.createIdentity idA .random (env 7)])).1 =
      .ok (.data d') ∧ d'.f.sigInfo.keyLocator = some (.name [⟨8, [120]⟩]) := by
    have : ((dataOf (kop toy sqlite (.sign packet { SInfo.init with info := ⟨none, some (.name [⟨8, [120]⟩]), []⟩ })
      (after sqlite [.createIdentity idA .random (env 7)])).1).map (fun f => f.sigInfo.keyLocator)) = some (some (.name [⟨8, [120]⟩])) := by decide +kernel
    generalize (kop toy sqlite (.sign packet { SInfo.init with info := ⟨none, some (.name [⟨8, [120]⟩]), []⟩ })
      (after sqlite [.createIdentity idA .random (env 7)])).1 = r at this
    match r, this with
    | .ok (.data d'), h => exact ⟨d', rfl, by simpa [dataOf] using h⟩
  obtain ⟨d', h1, h2⟩ := e
  rcases h UInt8 toy toy_works [.createIdentity idA .random (env 7)] packet _ d' _ h1 h2 with h | h | h | h
  · revert h; decide +kernel
  · revert h; decide +kernel
  · cases h
  · cases h

/-- The name of no key gives `std::invalid_argument`, not `InvalidSigningInfoError`. -/
theorem C93_name_counterexample :
    errOf (kop toy sqlite (.sign packet (SInfo.init.setSigningKeyName idA)) (after sqlite [.createIdentity idA .random (env 7)])).1 = some .invalid ∧
    errOf (kop toy sqlite (.sign packet (SInfo.init.setSigningKeyName (idA ++ [keyComp, ⟨8, [9]⟩]))) (after sqlite [.createIdentity idA .random (env 7)])).1 =
      some .signing := by
  constructor <;> decide +kernel

/-- With a digest algorithm other than SHA-256 the packet says SignatureSha256WithEcdsa all the same, and the signature
does not verify as such. -/
theorem C93_algorithm_counterexample :
    (dataOf (kop toy sqlite (.sign packet { SInfo.init with alg := .other 1 }) (after sqlite [.createIdentity idA .random (env 7)])).1).map
      (fun f => (f.sigInfo.type, f.sigValue.map Raw.value)) = some (some 3, some [7, 47, 1]) ∧
    ∀ u, toy.verify [7] u [7, 47, 1] = false := by
  refine ⟨by decide +kernel, fun u => ?_⟩
  simp [toy]

/-- `SigningInfo(SIGNER_TYPE_HMAC, name)` has no key: a null pointer is imported and used. -/
theorem C93_null_key_counterexample :
    errOf (kop toy sqlite (.sign packet (SInfo.make .hmac idA SigInfo.init)) (after sqlite [])).1 = some .ub := by
  decide +kernel

/-! ### Examples -/

theorem wf_sig {f : DFields} (h : DataWF f) {sig0 sig : Bytes} (h0 : f.sigValue = some (binaryBlock 23 sig0)) (hl : sig.length ≤ sig0.length)
    (hl0 : sig0.length < 1000) (hs : ∀ w, f.encode = some w → w.length < 1000) (ht : f.sigInfo.type ≠ none) :
    DataWF { f with sigValue := some (binaryBlock 23 sig) } := by
  have hb : sig.length < 2 ^ 64 := by omega
  refine ⟨h.name, h.minfo, h.content, h.sigInfo, ⟨_, rfl, binaryBlock_wf (by decide) (by decide) hb, rfl⟩, ?_⟩
  intro w hw
  obtain ⟨u, hu⟩ := unsigned_some (f := f) (sig := sig0) (by rw [← h0]; exact h)
  have hu' : { f with sigValue := some (binaryBlock 23 sig) : DFields }.encodeUnsigned = some u := hu
  unfold DFields.encode at hw
  rw [if_neg (by exact ht), hu'] at hw
  injection hw with hw; subst hw
  have h1 := hs (tlvBytes 6 (u ++ tlvBytes 23 sig0)) (by unfold DFields.encode; rw [if_neg ht, hu, h0]; rfl)
  dsimp only
  rw [tlvBytes_length] at h1
  have h5 : ∀ n, (writeVarNumber n).length ≤ 9 := by
    intro n; rw [writeVarNumber_length]; unfold sizeOfVarNumber; (repeat' split) <;> omega
  rw [tlvBytes_length]
  have a1 := h5 6
  have a2 := h5 (u ++ tlvBytes 23 sig).length
  have a3 : (u ++ tlvBytes 23 sig).length = u.length + (tlvBytes 23 sig).length := by simp
  have a4 : (u ++ tlvBytes 23 sig0).length = u.length + (tlvBytes 23 sig0).length := by simp
  have a5 : (tlvBytes 23 sig).length ≤ 18 + sig.length := by
    rw [tlvBytes_length]; have := h5 23; have := h5 sig.length; omega
  show _ < 2 ^ 64
  simp only [binaryBlock] at *
  omega

private theorem toy_encodable (si : SigInfo) (h : DataWF { packet.f with sigInfo := si, sigValue := some (binaryBlock 23 [0, 0, 0]) })
    (hs : ∀ w, { packet.f with sigInfo := si, sigValue := some (binaryBlock 23 [0, 0, 0]) : DFields }.encode = some w → w.length < 1000)
    (ht : si.type ≠ none) : Encodable toy packet si := by
  intro sig hsig
  have hl : sig.length ≤ 3 := by
    rcases hsig with ⟨x, a, m, h⟩ | ⟨m, rfl⟩
    · injection h with h; subst h; simp
    · simp [toy]
  exact wf_sig (sig0 := [0, 0, 0]) h rfl hl (by decide) hs ht

private def siA : SigInfo := ⟨some 3, some (.name certA), []⟩

private theorem packet_wf : DataWF { packet.f with sigInfo := siA, sigValue := some (binaryBlock 23 [0, 0, 0]) } where
  name := sampleData_wf.name
  minfo := sampleData_wf.minfo
  content := sampleData_wf.content
  sigInfo := ⟨⟨3, rfl, by decide⟩, by
      intro k hk; injection hk with hk; subst hk
      intro c hc
      simp only [certA, kA, idA, List.mem_append, List.mem_cons, List.not_mem_nil, or_false] at hc
      rcases hc with (rfl | rfl | rfl) | rfl | rfl <;> decide,
    (by intro b hb; cases hb), by
    intro t w hw
    obtain ⟨kl, hk, hl⟩ : ∃ kl, (KeyLoc.name certA).encode = some kl ∧ kl.length = 24 := ⟨_, rfl, by decide⟩
    simp only [siA, SigInfo.encode, hk, Option.some.injEq] at hw
    subst hw
    rw [tlvBytes_length]
    have h5 : ∀ n, (writeVarNumber n).length ≤ 9 := by
      intro n; rw [writeVarNumber_length]; unfold sizeOfVarNumber; (repeat' split) <;> omega
    have := h5 t
    have h6 : (nniTlv 27 3).length = 3 := by decide
    have := h5 (nniTlv 27 3 ++ kl ++ (([] : List Raw).map Raw.wire).flatten).length
    have : (nniTlv 27 3 ++ kl ++ (([] : List Raw).map Raw.wire).flatten).length = 27 := by simp [h6, hl]
    omega⟩
  sigValue := ⟨_, rfl, binaryBlock_wf (by decide) (by decide) (by decide), rfl⟩
  size := by
    intro w hw
    have : ({ packet.f with sigInfo := siA, sigValue := some (binaryBlock 23 [0, 0, 0]) : DFields }.encode.map List.length) = some 54 := by decide
    rw [hw] at this
    simp at this; omega

/-- The packet of the examples can be encoded with any signature of `toy`. -/
example : Encodable toy packet siA := toy_encodable siA packet_wf (by
  intro w hw
  have : ({ packet.f with sigInfo := siA, sigValue := some (binaryBlock 23 [0, 0, 0]) : DFields }.encode.map List.length) = some 54 := by decide
  rw [hw] at this
  simp at this; omega) (by simp [siA])

private def selfA : DFields := { certFields kA [7] ⟨selfComp, 1, 3600000, binaryBlock 253 []⟩ with
  sigInfo := selfInfo toy [7] kA (binaryBlock 253 []), sigValue := some (binaryBlock 23 [0, 0, 0]) }

private theorem selfA_length : selfA.encode.map List.length = some 67 := by decide

private theorem selfA_size (w : Bytes) (hw : selfA.encode = some w) : w.length = 67 := by
  have := selfA_length
  rw [hw] at this
  injection this

private theorem selfA_wf : DataWF selfA where
  name := by
    intro c hc
    simp only [selfA, certFields, kA, idA, List.mem_append, List.mem_cons, List.not_mem_nil, or_false] at hc
    rcases hc with (rfl | rfl | rfl) | rfl | rfl <;> decide
  minfo := ⟨by decide, by decide, (by intro c hc; cases hc), (by intro b hb; cases hb), by decide⟩
  content := by
    intro c hc
    injection hc with hc; subst hc
    exact ⟨binaryBlock_wf (by decide) (by decide) (by decide), rfl⟩
  sigInfo := ⟨⟨3, rfl, by decide⟩, by
      intro k hk; injection hk with hk; subst hk
      intro c hc
      simp only [kA, idA, List.mem_append, List.mem_cons, List.not_mem_nil, or_false] at hc
      rcases hc with rfl | rfl | rfl <;> decide, by
      intro b hb
      simp only [selfA, selfInfo, List.mem_cons, List.not_mem_nil, or_false] at hb
      subst hb
      exact ⟨binaryBlock_wf (by decide) (by decide) (by decide), by decide, by decide, (fun h => by cases h), .inl rfl⟩, by
    intro t w hw
    obtain ⟨kl, hk, hl⟩ : ∃ kl, (KeyLoc.name kA).encode = some kl ∧ kl.length = 15 := ⟨_, rfl, by decide⟩
    have hw : w = tlvBytes t (nniTlv 27 3 ++ kl ++ ([binaryBlock 253 []].map Raw.wire).flatten) := by
      simp only [selfA, selfInfo, SigInfo.encode, hk] at hw
      rw [show (toy.keyType [7]).map kindNo = some 3 from rfl] at hw
      exact (Option.some.inj hw).symm
    rw [hw, tlvBytes_length]
    have h5 : ∀ n, (writeVarNumber n).length ≤ 9 := by
      intro n; rw [writeVarNumber_length]; unfold sizeOfVarNumber; (repeat' split) <;> omega
    have := h5 t
    have h6 : (nniTlv 27 3).length = 3 := by decide
    have h7 : (([binaryBlock 253 []] : List Raw).map Raw.wire).flatten.length = 4 := by decide
    have := h5 (nniTlv 27 3 ++ kl ++ (([binaryBlock 253 []] : List Raw).map Raw.wire).flatten).length
    have : (nniTlv 27 3 ++ kl ++ (([binaryBlock 253 []] : List Raw).map Raw.wire).flatten).length = 22 := by
      rw [List.length_append, List.length_append, h6, hl, h7]
    omega⟩
  sigValue := ⟨_, rfl, binaryBlock_wf (by decide) (by decide) (by decide), rfl⟩
  size := by intro w hw; rw [selfA_size w hw]; decide

/-- A key can be created: for all signatures `toy` makes the certificate can be encoded. -/
example : Possible toy idA (.user ⟨8, [5]⟩) (env 7) (fun _ => none) := by
  refine ⟨[7], rfl, rfl, ?_⟩
  rintro k ⟨c, rfl, rfl⟩
  intro sig hsig
  have hl : sig.length ≤ 3 := by
    rcases hsig with ⟨x, a, m, h⟩ | ⟨m, rfl⟩
    · injection h with h; subst h; simp
    · simp [toy]
  exact wf_sig (f := selfA) (sig0 := [0, 0, 0]) selfA_wf rfl hl (by decide) (fun w hw => by rw [selfA_size w hw]; decide) (by decide)

/-- A history within `KFits`: creating an identity, signing with it and deleting it. -/
example : (krun toy sqlite [.createIdentity idA .random (env 7), .sign packet SInfo.init, .createKey 0 .sha256 (env 9), .deleteKey 0 1, .deleteIdentity 0]
    (St.init sqlite)).1.map errOf = [none, none, none, none, none] := by decide +kernel

example : (dataOf (kop toy sqlite (.sign packet SInfo.init) (after sqlite [.createIdentity idA .random (env 7)])).1).map
    (fun f => (f.sigInfo, f.sigValue.map Raw.value)) = some (siA, some [7, 47, 0]) := by decide +kernel

example : KFits toy KWorld.init (.createIdentity idA .random (env 7)) := fun _ => ⟨(fun e => by revert e; decide), (fun _ e => by cases e)⟩

/-- In the world after the creation the default key is asked for with a default `SigningInfo`. -/
private def worldA : World := ⟨((withIdent View.empty idA).addKey idA kA [7]).addCert ⟨certA, [7], []⟩, fun _ => .unused⟩

example : Signer worldA (SInfo.init : SInfo UInt8) kA certA ∧ worldA.v.key kA = some [7] ∧ keyInfo toy SInfo.init [7] certA = siA ∧ Ready worldA.v idA ∧
    ¬ Digest worldA (SInfo.init : SInfo UInt8) := by
  have e : locator worldA.v kA = certA := by decide
  have h1 : worldA.v.defKey idA = some kA := by decide
  refine ⟨?_, by decide, by decide, ⟨by decide, kA, certA, h1, by decide⟩, ?_⟩
  · rw [← e]; exact .default rfl (by decide) h1
  · rintro (h | ⟨-, h⟩)
    · cases h
    · revert h; decide

/-- A bag whose private key is for the certificate, and one whose is not. -/
example : Importable toy (fun _ => none) kA ⟨certA, [7], []⟩ [7] [1] [3] ∧ ¬ Importable toy (fun _ => none) kA ⟨certA, [7], []⟩ [8] [1] [3] := by
  refine ⟨⟨rfl, 7, _, rfl, rfl, by decide⟩, ?_⟩
  rintro ⟨-, x, sig, h1, h2, h3⟩
  injection h1 with h1; subst h1
  injection h2 with h2; subst h2
  revert h3; decide

example : TestSound toy ⟨certA, [7], []⟩ [7] [1] [3] := by
  intro x sig h1 _ _
  injection h1 with h1; subst h1
  exact toy_works.pair 7 [7] (by decide)

/-- Wherever `createKey` is cut off the key chain can go on: three accesses, at least. -/
example : 3 ≤ (kop toy sqlite (.createKey 0 .sha256 (env 9)) { after sqlite [.createIdentity idA .random (env 7)] with trail := [] }).2.trail.length := by
  decide +kernel

/-- A certificate is made for the key. -/
example : (dataOf (kop toy sqlite (.makeCert 1 SInfo.init ⟨⟨8, [120]⟩, 2, 1000, binaryBlock 253 []⟩) (after sqlite [.createIdentity idA .random (env 7)])).1).map
    (fun f => (f.name, f.content.map Raw.value, f.sigInfo.keyLocator)) = some (kA ++ [⟨8, [120]⟩, ⟨54, [2]⟩], some [7], some (.name certA)) := by decide +kernel

end Ndn.KeyChain
