import Verif.KeyChain.Signers
namespace Ndn.KeyChain
open Ndn.Name Ndn.Tlv Ndn.Block Ndn.Packet Ndn.Pib Ndn.Pib.Spec Ndn.KeyChain.Spec

variable {σ K α β : Type} {b : Backend σ} {R : σ → View → Prop} {A : View → PName → Prop}
  {T : View → List (PName × Option K) → Prop} {s : St σ K} {w : World} {C : Crypto K}

/-- `sig` is what the key called `n` gives for `u`. -/
def SigOf (C : Crypto K) (n : PName) (a : Alg) (keys : List (PName × Option K)) (u sig : Bytes) : Prop :=
  (n = digestIdentity ∧ sig = C.sha u) ∨ (n ≠ digestIdentity ∧ ∃ x, get n keys = some (some x) ∧ C.sign x a u = some sig)

/-- It gives none, but `e`. -/
def NoSig (C : Crypto K) (n : PName) (a : Alg) (keys : List (PName × Option K)) (u : Bytes) (e : Err) : Prop :=
  n ≠ digestIdentity ∧ ((get n keys = none ∧ e = .signing) ∨ (get n keys = some none ∧ e = .ub) ∨
    (∃ x, get n keys = some (some x) ∧ C.sign x a u = none ∧ e = .crypto))

def Tail (C : Crypto K) (d : DObj) (si : SigInfo) (n : PName) (a : Alg) (t : Tpm K) (r : Except Err DObj) (t' : Tpm K) : Prop :=
  Kept t t' ∧
  ((∃ u sig d', SigOf C n a t.keys u sig ∧ Signed d si u sig d' ∧ r = .ok d') ∨
   (r = .error .encode ∧ ({ d.f with sigInfo := si : DFields }.encodeUnsigned = none ∨
      ∃ u sig, { d.f with sigInfo := si : DFields }.encodeUnsigned = some u ∧ SigOf C n a t.keys u sig ∧
        ((DObj.reset { d.f with sigInfo := si }).finish u sig).2 = none)) ∨
   (∃ u e, { d.f with sigInfo := si : DFields }.encodeUnsigned = some u ∧ NoSig C n a t.keys u e ∧ r = .error e))

theorem ex_rawSign (hs : Sim R s.pib w) (hc : CacheOk s.tpm) (u : Bytes) (n : PName) (a : Alg) {Q : Except Err Bytes → World → Tpm K → Prop}
    (h1 : ∀ sig t', SigOf C n a s.tpm.keys u sig → Kept s.tpm t' → Q (.ok sig) w t')
    (h2 : ∀ e t', NoSig C n a s.tpm.keys u e → Kept s.tpm t' → Q (.error e) w t') : Ex R T s (rawSign C u n a) Q := by
  unfold rawSign
  by_cases hn : n = digestIdentity
  · rw [if_pos hn]
    exact ex_pure hs _ (h1 _ _ (.inl ⟨hn, rfl⟩) (.refl hc))
  · rw [if_neg hn]
    refine ex_bind (Q1 := fun r w' t => w' = w ∧ Kept s.tpm t ∧ ((∃ sig, r = .ok (some sig) ∧ SigOf C n a s.tpm.keys u sig) ∨
        (r = .ok none ∧ NoSig C n a s.tpm.keys u .signing) ∨ (∃ e, r = .error e ∧ NoSig C n a s.tpm.keys u e)))
      (ex_tpmSign C u hs n a hc (fun k sig t' hk hsg ht => ⟨rfl, ht, .inl ⟨sig, rfl, .inr ⟨hn, k, hk, hsg⟩⟩⟩)
        (fun hk => ⟨rfl, .refl hc, .inr (.inl ⟨rfl, hn, .inl ⟨hk, rfl⟩⟩)⟩)
        (fun hk => ⟨rfl, .refl hc, .inr (.inr ⟨_, rfl, hn, .inr (.inl ⟨hk, rfl⟩)⟩)⟩)
        (fun k t' hk hsg ht => ⟨rfl, ht, .inr (.inr ⟨_, rfl, hn, .inr (.inr ⟨k, hk, hsg, rfl⟩)⟩)⟩)) ?_ ?_
    · rintro o w1 s1 hs1 ⟨rfl, ht, ⟨sig, e, h⟩ | ⟨e, h⟩ | ⟨e', e, h⟩⟩
      · injection e with e; subst e
        exact ex_pure hs1 _ (h1 _ _ h ht)
      · injection e with e; subst e
        exact ex_raise hs1 _ (h2 _ _ h ht)
      · cases e
    · rintro e w1 t1 ⟨rfl, ht, ⟨sig, e', h⟩ | ⟨e', h⟩ | ⟨e2, e', h⟩⟩
      · cases e'
      · cases e'
      · injection e' with e'; subst e'
        exact h2 _ _ h ht

/-- What signing gives. -/
def SignOut (C : Crypto K) (w : World) (p : SInfo K) (d : DObj) (t : Tpm K) (r : Except Err DObj) (w' : World) (t' : Tpm K) : Prop :=
  Same w w' ∧
  ((∃ k loc bits, Signer w p k loc ∧ w.v.key k = some bits ∧ Tail C d (keyInfo C p bits loc) k p.alg t r t') ∨
   (Digest w p ∧ Tail C d { p.info with type := some 0 } digestIdentity p.alg t r t') ∨
   (p.type = .hmac ∧ ∃ t1, (t1 = t ∧ (get p.name t.keys).isSome ∨ get p.name t.keys = none ∧ t1 = { t with keys := put p.name p.hmac t.keys }) ∧
      Tail C d { p.info with type := some 4, keyLocator := some (.name p.name) } p.name p.alg t1 r t') ∨
   (t' = t ∧ (∀ k loc, ¬ Signer w p k loc) ∧ ¬ Digest w p ∧ p.type ≠ .hmac ∧
    (r = .error .signing ∨ r = .error .invalid ∧
      (p.type = .key ∧ (∀ i, ¬ KeyName i p.name) ∨ p.type = .cert ∧ (∀ k, ¬ CertName k p.name)))))

theorem ex_tail (hs : Sim R s.pib w) (hc : CacheOk s.tpm) (d : DObj) (si : SigInfo) (n : PName) (a : Alg) {Q : Except Err DObj → World → Tpm K → Prop}
    (hq : ∀ r t', Tail C d si n a s.tpm r t' → Q r w t') :
    Ex R T s (match (DObj.reset { d.f with sigInfo := si }).f.encodeUnsigned with
      | none => raise .encode
      | some u => do
        let sig ← rawSign C u n a
        match (DObj.reset { d.f with sigInfo := si }).finish u sig with
        | (d', some _) => pure d'
        | (_, none) => raise .encode) Q := by
  cases hu : (DObj.reset { d.f with sigInfo := si }).f.encodeUnsigned with
  | none =>
    exact ex_raise hs _ (hq _ _ ⟨.refl hc, .inr (.inl ⟨rfl, .inl hu⟩)⟩)
  | some u =>
    dsimp only
    refine ex_bind (Q1 := fun r w' t => w' = w ∧ Kept s.tpm t ∧ ((∃ sig, r = .ok sig ∧ SigOf C n a s.tpm.keys u sig) ∨
        (∃ e, r = .error e ∧ NoSig C n a s.tpm.keys u e)))
      (ex_rawSign hs hc u n a (fun sig t' h ht => ⟨rfl, ht, .inl ⟨sig, rfl, h⟩⟩) (fun e t' h ht => ⟨rfl, ht, .inr ⟨e, rfl, h⟩⟩)) ?_ ?_
    · rintro sig w1 s1 hs1 ⟨rfl, ht, ⟨sig', e, h⟩ | ⟨e', e, h⟩⟩
      · injection e with e; subst e
        cases hf : (DObj.reset { d.f with sigInfo := si }).finish u sig with
        | mk d' o =>
          cases o with
          | none => exact ex_raise hs1 _ (hq _ _ ⟨ht, .inr (.inl ⟨rfl, .inr ⟨u, sig, hu, h, by rw [hf]⟩⟩)⟩)
          | some wr => exact ex_pure hs1 _ (hq _ _ ⟨ht, .inl ⟨u, sig, d', h, ⟨hu, wr, hf⟩, rfl⟩⟩)
      · cases e
    · rintro e w1 t1 ⟨rfl, ht, ⟨sig, e', h⟩ | ⟨e2, e', h⟩⟩
      · cases e'
      · injection e' with e'; subst e'
        exact hq _ _ ⟨ht, .inr (.inr ⟨u, e, hu, h, rfl⟩)⟩

theorem ex_signData (F : Faithful b R A) (W : Works C) (hs : Sim R s.pib w) (inv : Inv C w s.tpm) (d : DObj) (p : SInfo K) :
    Ex R (TT C) s (signData C b d p) (SignOut C w p d s.tpm) := by
  unfold signData
  refine ex_bind (ex_prepare F W hs inv p) ?_ ?_
  · rintro ⟨n, si⟩ w1 s1 hs1 ⟨hsm, ⟨ht, k, loc, bits, hsg, hb, e⟩ | ⟨ht, hd, e⟩ | ⟨hp, ht, e⟩ | ⟨ht, _, _, _, e | ⟨e, -⟩⟩⟩
    · injection e with e; injection e with e1 e2; subst e1; subst e2
      have hc : CacheOk s1.tpm := by rw [ht]; exact inv.cache
      exact ex_tail hs1 hc d _ n p.alg (fun r t' h => ⟨hsm, .inl ⟨n, loc, bits, hsg, hb, by rw [← ht]; exact h⟩⟩)
    · injection e with e; injection e with e1 e2; subst e1; subst e2
      have hc : CacheOk s1.tpm := by rw [ht]; exact inv.cache
      exact ex_tail hs1 hc d _ _ p.alg (fun r t' h => ⟨hsm, .inr (.inl ⟨hd, by rw [← ht]; exact h⟩)⟩)
    · injection e with e; injection e with e1 e2; subst e1; subst e2
      have hc : CacheOk s1.tpm := by
        rcases ht with ⟨ht, -⟩ | ⟨hg, ht⟩
        · rw [ht]; exact inv.cache
        · rw [ht]; exact inv.cache.put _ hg
      exact ex_tail hs1 hc d { p.info with type := some 4, keyLocator := some (.name p.name) } p.name p.alg
        (fun r t' h => ⟨hsm, .inr (.inr (.inl ⟨hp, s1.tpm, ht, h⟩))⟩)
    · cases e
    · cases e
  · rintro e w1 t1 ⟨hsm, ⟨ht, k, loc, bits, hsg, hb, e'⟩ | ⟨ht, hd, e'⟩ | ⟨hp, ht, e'⟩ | ⟨ht, h1, h2, h3, h4⟩⟩
    · cases e'
    · cases e'
    · cases e'
    · refine ⟨hsm, .inr (.inr (.inr ⟨ht, h1, h2, h3, ?_⟩))⟩
      rcases h4 with h4 | ⟨h4, h5⟩
      · injection h4 with h4; subst h4; exact .inl rfl
      · injection h4 with h4; subst h4; exact .inr ⟨rfl, h5⟩

/-- Signing keeps the PIB and the TPM in agreement. -/
theorem SignOut.inv {p : SInfo K} {d : DObj} {t t' : Tpm K} {r : Except Err DObj} {w' : World} (h : SignOut C w p d t r w' t') (inv : Inv C w t) :
    Inv C w' t' := by
  obtain ⟨hsm, ⟨k, loc, bits, -, -, ht, -⟩ | ⟨-, ht, -⟩ | ⟨-, t1, h1, ht, -⟩ | ⟨ht, -⟩⟩ := h
  · exact inv.move hsm.v ht
  · exact inv.move hsm.v ht
  · rcases h1 with ⟨rfl, -⟩ | ⟨hg, rfl⟩
    · exact inv.move hsm.v ht
    · have : Inv C w { t with keys := put p.name p.hmac t.keys } := ⟨inv.cache.put _ hg, inv.held.put _ hg, inv.certs⟩
      exact this.move hsm.v ht
  · exact inv.same hsm ht

/-! ## Certificates -/

theorem ex_makeCertPacket (F : Faithful b R A) (W : Works C) (hs : Sim R s.pib w) (inv : Inv C w s.tpm) (n : PName) (pub : Bytes) (p : SInfo K)
    (o : CertOpts) {Q : Except Err DObj → World → Tpm K → Prop}
    (h1 : o.freshness ≤ 0 → Q (.error .invalid) w s.tpm)
    (h2 : ∀ r w' t', 0 < o.freshness → SignOut C w { p with info := (SObj.addCustom ⟨none, p.info⟩ o.validity).s } (certData n pub o) s.tpm r w' t' →
      (∀ d, r = .ok d → (toCert d).isSome) → Q r w' t')
    (h3 : ∀ d w' t', 0 < o.freshness → SignOut C w { p with info := (SObj.addCustom ⟨none, p.info⟩ o.validity).s } (certData n pub o) s.tpm (.ok d) w' t' →
      toCert d = none → Q (.error .cert) w' t') :
    Ex R (TT C) s (makeCertPacket C b n pub p o) Q := by
  unfold makeCertPacket
  by_cases hf : o.freshness ≤ 0
  · rw [if_pos hf]; exact ex_raise hs _ (h1 hf)
  · rw [if_neg hf]
    have hf' : 0 < o.freshness := by omega
    dsimp only
    refine ex_bind (ex_signData F W hs inv (certData n pub o) { p with info := (SObj.addCustom ⟨none, p.info⟩ o.validity).s }) ?_ ?_
    · intro d w1 s1 hs1 h
      cases hc : toCert d with
      | none => exact ex_raise hs1 _ (h3 d _ _ hf' h hc)
      | some c => exact ex_pure hs1 _ (h2 _ _ _ hf' h (fun d' e => by injection e with e; subst e; rw [hc]; rfl))
    · intro e w1 t1 h
      exact h2 _ _ _ hf' h (fun d' e => by cases e)

theorem toCert_name {d : DObj} {c : Crt} (h : toCert d = some c) :
    c.name = d.f.name ∧ c.pub = (d.f.content.map Raw.value).getD [] ∧ c.rest = d.wire.getD [] ∧ (∃ k, CertName k c.name) ∧
      d.f.minfo.type = 2 ∧ 0 < d.f.minfo.getFreshness := by
  unfold toCert at h
  split at h
  · rename_i hv
    simp only [Bool.and_eq_true, decide_eq_true_eq] at hv
    injection h with h; subst h
    have : ∃ k, keyOf d.f.name = some k := by
      unfold keyOf; rw [if_pos hv.1.1]; exact ⟨_, rfl⟩
    obtain ⟨k, hk⟩ := this
    exact ⟨rfl, rfl, rfl, ⟨k, (keyOf_iff _ _).mp hk⟩, hv.1.2, hv.2⟩
  · cases h

theorem signer_handle {h : Nat} {k : PName} (hh : w.hs h = .alive (.key k)) {p : SInfo K} (hp : p.type = .key) (hk : p.key = some h)
    {k' loc : PName} (hs : Signer w p k' loc) : k' = k ∧ loc = locator w.v k := by
  cases hs with
  | default h1 => simp_all
  | ident h1 => simp_all
  | cert h1 => simp_all
  | key h1 hg =>
    rcases hg with ⟨h', e1, e2⟩ | ⟨hn, -⟩
    · rw [hk] at e1; injection e1 with e1; subst e1
      rw [hh] at e2; injection e2 with e2; injection e2 with e2; subst e2
      exact ⟨rfl, rfl⟩
    · exact absurd ⟨h, k, hk, hh⟩ hn

theorem key_not_digest {v : View} (co : Coherent v) {k : PName} (h : (v.key k).isSome) : k ≠ digestIdentity := by
  rintro rfl
  obtain ⟨i, ⟨c, hi⟩, -⟩ := co.parent _ h
  match i, hi with
  | [x], hi => revert hi; simp [digestIdentity, keyComp]
  | [], hi => simp [digestIdentity] at hi
  | x :: y :: l, hi =>
    have := congrArg List.length hi
    simp [digestIdentity] at this

theorem Tail.not_pib {d : DObj} {si : SigInfo} {n : PName} {a : Alg} {t t' : Tpm K} {r : Except Err DObj} (h : Tail C d si n a t r t') :
    r ≠ .error .pib := by
  rintro rfl
  rcases h with ⟨-, ⟨u, sig, d', -, -, e⟩ | ⟨e, -⟩ | ⟨u, e, -, ⟨-, h⟩, e'⟩⟩
  · cases e
  · cases e
  · injection e' with e'; subst e'
    rcases h with ⟨-, h⟩ | ⟨-, h⟩ | ⟨x, -, -, h⟩ <;> cases h

theorem SignOut.not_pib {p : SInfo K} {d : DObj} {t t' : Tpm K} {r : Except Err DObj} {w' : World} (h : SignOut C w p d t r w' t') :
    r ≠ .error .pib := by
  rcases h with ⟨-, ⟨k, loc, bits, -, -, h⟩ | ⟨-, h⟩ | ⟨-, t1, -, h⟩ | ⟨-, -, -, -, h | ⟨h, -⟩⟩⟩
  · exact h.not_pib
  · exact h.not_pib
  · exact h.not_pib
  · rw [h]; simp
  · rw [h]; simp

/-- Signing with a key of the PIB succeeds, if the packet can be encoded. -/
theorem SignOut.key {p : SInfo K} {d : DObj} {t t' : Tpm K} {r : Except Err DObj} {w' : World} (co : Coherent w.v) (inv : Inv C w t)
    {k loc : PName} {bits : Bytes} (h1 : Signer w p k loc) (hb : w.v.key k = some bits) (ha : p.alg = .sha256)
    (he : Encodable C d (keyInfo C p bits loc)) (h : SignOut C w p d t r w' t') :
    ∃ d', r = .ok d' ∧ SignedAs d (keyInfo C p bits loc) (fun u sig => C.verify bits u sig = true) d' := by
  obtain ⟨x, hx, hm⟩ := inv.held k bits hb
  have hnd := key_not_digest co (k := k) (by rw [hb]; rfl)
  obtain ⟨-, ⟨k', loc', bits', a1, a2, -, a3⟩ | ⟨a1, -⟩ | ⟨a1, -⟩ | ⟨-, a1, -⟩⟩ := h
  · obtain ⟨rfl, rfl⟩ := signer_unique h1 a1
    rw [hb] at a2; injection a2 with a2; subst a2
    rw [ha] at a3
    have ok : ∀ u sig, SigOf C k .sha256 t.keys u sig → (∃ x a m, C.sign x a m = some sig) ∧ C.verify bits u sig = true := by
      rintro u sig (⟨h, -⟩ | ⟨-, y, hy, h⟩)
      · exact absurd h hnd
      · rw [hx] at hy; injection hy with hy; injection hy with hy; subst hy
        obtain ⟨sig', h4, h5⟩ := hm u
        rw [h] at h4; injection h4 with h4; subst h4
        exact ⟨⟨_, _, _, h⟩, h5⟩
    rcases a3 with ⟨u, sig, d', b1, b2, b3⟩ | ⟨-, b1 | ⟨u, sig, b1, b2, b3⟩⟩ | ⟨u, e, -, ⟨-, b1⟩, -⟩
    · exact ⟨d', b3, signed_as (he sig (.inl (ok u sig b1).1)) b2 (ok u sig b1).2⟩
    · obtain ⟨u, hu⟩ := unsigned_some (f := { d.f with sigInfo := keyInfo C p bits loc }) (he (C.sha []) (.inr ⟨_, rfl⟩))
      rw [hu] at b1; cases b1
    · exact absurd b3 (finish_some (he sig (.inl (ok u sig b2).1)) b1 _)
    · rcases b1 with ⟨b1, -⟩ | ⟨b1, -⟩ | ⟨y, b1, b2, -⟩
      · rw [hx] at b1; cases b1
      · rw [hx] at b1; cases b1
      · rw [hx] at b1; injection b1 with b1; injection b1 with b1; subst b1
        obtain ⟨sig', h4, -⟩ := hm u
        rw [b2] at h4; cases h4
  · exact absurd a1 (signer_not_digest h1)
  · exact absurd a1 (signer_not_hmac h1)
  · exact absurd h1 (a1 _ _)

/-- The packet of a certificate is one. -/
theorem toCert_some {d : DObj} {k : PName} {pub : Bytes} {o : CertOpts} {si : SigInfo} {sv : Option Raw} (hk : ∃ i, KeyName i k) (hf : 0 < o.freshness)
    (h : d.f = { certFields k pub o with sigInfo := si, sigValue := sv }) :
    toCert d = some ⟨k ++ [o.issuer, ⟨54, writeNonNegativeInteger o.version⟩], pub, d.wire.getD []⟩ := by
  obtain ⟨i, hi⟩ := hk
  have hv : (keyOf (k ++ [o.issuer, ⟨54, writeNonNegativeInteger o.version⟩])).isSome := by
    rw [(keyOf_iff k _).mpr ⟨⟨_, _, rfl⟩, i, hi⟩]; rfl
  have hv : validCert (k ++ [o.issuer, ⟨54, writeNonNegativeInteger o.version⟩]) = true := by
    unfold keyOf at hv
    split at hv
    · assumption
    · cases hv
  unfold toCert
  rw [h]
  have hg : 0 < ({ MetaInfo.init with type := 2, freshness := o.freshness.toNat } : MetaInfo).getFreshness := by
    simp only [MetaInfo.getFreshness]
    split <;> omega
  simp only [certFields, hv, Bool.true_and, decide_true]
  exact if_pos (decide_eq_true hg)

/-- Self-signing the only certificate of a key. -/
theorem ex_selfSign (F : Faithful b R A) (W : Works C) (hs : Sim R s.pib w) (inv : Inv C w s.tpm) (e : Env K) {h : Nat} {k : PName}
    (hh : w.hs h = .alive (.key k)) (hd : w.v.defCert k = none) {Q : Except Err Unit → World → Tpm K → Prop}
    (h1 : ∀ c w' t', CertName k c.name → w.v.key k = some c.pub → SelfSigned C k e c → w'.v = w.v.addCert c → (∀ x r, w.hs x = .alive r → w'.hs x = .alive r) →
      Kept s.tpm t' → Q (.ok ()) w' t')
    (h2 : ∀ er w' t', er ≠ .pib → Same w w' → Kept s.tpm t' → (∀ bits, w.v.key k = some bits → ¬ SelfEncodable C k bits e) → Q (.error er) w' t') :
    Ex R (TT C) s (selfSign C b e h) Q := by
  unfold selfSign
  refine exb_keyName F hs inv.t hh (fun s1 hs1 ht1 => ?_)
  dsimp only [List.headD_cons]
  have inv1 : Inv C w s1.tpm := by rw [ht1]; exact inv
  have kept : ∀ {p : SInfo K} {d : DObj} {r w' t'}, p.type = .key → p.key = some h → SignOut C w p d s1.tpm r w' t' → Kept s1.tpm t' := by
    intro p d r w' t' hp hk ho
    obtain ⟨hsm, ⟨k', loc, bits, -, -, ht, -⟩ | ⟨hdg, -⟩ | ⟨hp', -⟩ | ⟨ht, -⟩⟩ := ho
    · exact ht
    · rcases hdg with hdg | ⟨hdg, -⟩ <;> (rw [hp] at hdg; cases hdg)
    · rw [hp] at hp'; cases hp'
    · rw [ht]; exact .refl inv1.cache
  refine ex_bind (Q1 := fun r w' t => Same w w' ∧ Kept s.tpm t ∧ r ≠ .error .pib ∧ (∀ d, r = .ok d → (toCert d).isSome ∧
      ∀ c, w.v.key k = some c.pub → c.name = d.f.name → c.rest = d.wire.getD [] → SelfSigned C k e c) ∧
      (∀ bits, w.v.key k = some bits → SelfEncodable C k bits e → ∃ d sig, r = .ok d ∧
        d.f = { certFields k bits ⟨selfComp, e.version, 3600000, e.validity⟩ with sigInfo := selfInfo C bits k e.validity, sigValue := some (binaryBlock 23 sig) })) ?_ ?_ ?_
  · unfold makeCert
    refine exb_keyName F hs1 inv1.t hh (fun s2 hs2 ht2 => ?_)
    have inv2 : Inv C w s2.tpm := by rw [ht2]; exact inv1
    refine exb_keyBits F hs2 inv2.t hh (fun s3 bits hs3 ht3 hb => ?_)
    have inv3 : Inv C w s3.tpm := by rw [ht3]; exact inv2
    dsimp only [List.headD_cons]
    have good : ∀ {r w' t'}, SignOut C w { (SInfo.init : SInfo K).setPibKey (some h) (some k) with info := (SObj.addCustom ⟨none, SigInfo.init⟩ e.validity).s }
        (certData k bits ⟨selfComp, e.version, 3600000, e.validity⟩) s3.tpm r w' t' → SelfEncodable C k bits e → ∃ d sig, r = .ok d ∧
        d.f = { certFields k bits ⟨selfComp, e.version, 3600000, e.validity⟩ with sigInfo := selfInfo C bits k e.validity, sigValue := some (binaryBlock 23 sig) } := by
      intro r w' t' ho he
      have hi : selfInfo C bits k e.validity = keyInfo C (K := K) { (SInfo.init : SInfo K).setPibKey (some h) (some k) with
          info := (SObj.addCustom ⟨none, SigInfo.init⟩ e.validity).s } bits (locator w.v k) := by
        simp only [selfInfo, keyInfo, locator, hd, SObj.addCustom, SigInfo.init, findOther, List.find?_nil, Option.getD_none, List.nil_append]
      have he' := he
      unfold SelfEncodable at he'
      rw [hi] at he'
      obtain ⟨d, e1, sig, wr, blk, es, u, e2, -⟩ := SignOut.key (F.rep hs.rep).coh inv3 (.key rfl (.inl ⟨h, rfl, hh⟩)) hb rfl he' ho
      exact ⟨d, sig, e1, by rw [e2, hi]; rfl⟩
    refine ex_makeCertPacket F W hs3 inv3 _ _ _ _ ?_ ?_ ?_
    · intro hf; dsimp only at hf; omega
    · intro r w' t' _ ho hr
      refine ⟨ho.1, ?_, ho.not_pib, ?_, fun bits' hb' he => by rw [hb] at hb'; injection hb' with hb'; subst hb'; exact good ho he⟩
      · rw [← ht1]
        exact kept rfl rfl (by rw [ht3, ht2] at ho; exact ho)
      · rintro d rfl
        refine ⟨hr d rfl, fun c c1 c2 c3 => ?_⟩
        rw [ht3, ht2] at ho
        obtain ⟨-, ⟨k', loc, bits', h1, hb2, -, h3⟩ | ⟨hdg | ⟨hdg, -⟩, -⟩ | ⟨hp', -⟩ | ⟨-, -, -, -, e' | ⟨e', -⟩⟩⟩ := ho
        · obtain ⟨rfl, rfl⟩ := signer_handle hh rfl rfl h1
          rw [hb] at hb2; injection hb2 with hb2; subst hb2
          rw [hb] at c1; injection c1 with c1; subst c1
          rcases h3 with ⟨u, sig, d', h4, h5, e'⟩ | ⟨e', -⟩ | ⟨u, er, -, ⟨-, hn⟩, e'⟩
          · injection e' with e'; subst e'
            refine ⟨d, u, sig, ?_, ?_, c2, c3⟩
            · have : selfInfo C c.pub k' e.validity = keyInfo C (K := K) { (SInfo.init : SInfo K).setPibKey (some h) (some k') with
                  info := (SObj.addCustom ⟨none, SigInfo.init⟩ e.validity).s } c.pub (locator w.v k') := by
                simp only [selfInfo, keyInfo, locator, hd, SObj.addCustom, SigInfo.init, findOther, List.find?_nil, Option.getD_none, List.nil_append]
              rw [this]; exact h5
            · have hkd := key_not_digest (F.rep hs.rep).coh (k := k') (by rw [hb]; rfl)
              rcases h4 with ⟨h4, -⟩ | ⟨-, x, h6, h7⟩
              · exact absurd h4 hkd
              · obtain ⟨y, hy, hm⟩ := inv1.held k' _ hb
                rw [h6] at hy; injection hy with hy; injection hy with hy; subst hy
                obtain ⟨sig', g1, g2⟩ := hm u
                have h7' : C.sign x .sha256 u = some sig := h7
                rw [h7'] at g1; injection g1 with g1; subst g1
                exact g2
          · cases e'
          · cases e'
        · cases hdg
        · cases hdg
        · cases hp'
        · cases e'
        · cases e'
    · intro d w' t' _ ho hr
      refine ⟨ho.1, ?_, (fun h => by cases h), (fun d e => by cases e), ?_⟩
      · rw [← ht1]
        exact kept rfl rfl (by rw [ht3, ht2] at ho; exact ho)
      · intro bits' hb' he
        rw [hb] at hb'; injection hb' with hb'; subst hb'
        obtain ⟨d', sig, e1, e2⟩ := good ho he
        injection e1 with e1; subst e1
        obtain ⟨i, hi, -⟩ := (F.rep hs.rep).coh.parent k (by rw [hb]; rfl)
        rw [toCert_some ⟨i, hi⟩ (show (0 : Int) < 3600000 by decide) e2] at hr; cases hr
  · rintro d w1 s2 hs2 ⟨hsm, ht, -, hc, hg⟩
    obtain ⟨hc, hss⟩ := hc d rfl
    obtain ⟨c, hc⟩ := Option.isSome_iff_exists.mp hc
    rw [hc]
    dsimp only
    have inv2 : Inv C w1 s2.tpm := inv.move hsm.v ht
    have hh' := hsm.live _ _ hh
    obtain ⟨hc1, -, hc3, hcn, -, -⟩ := toCert_name hc
    have stp : ∀ out w', Step w1 (.addCert h c) out w' → (CertName k c.name ∧ w1.v.key k = some c.pub ∧ out = .done ∧ w' = ⟨w1.v.addCert c, w1.hs⟩) ∨
        (out = .invalid ∧ w' = w1 ∧ ∀ bits, w.v.key k = some bits → ¬ SelfEncodable C k bits e) := by
      intro out w' h
      simp only [Step, onKey, hh'] at h
      split at h
      · rename_i hx; exact .inl ⟨hx.1, hx.2, h.1, h.2⟩
      · rename_i hx
        refine .inr ⟨h.1, h.2, fun bits hb he => hx ?_⟩
        obtain ⟨d', sig, e1, e2⟩ := hg bits hb he
        injection e1 with e1; subst e1
        obtain ⟨i, hi, -⟩ := (F.rep hs.rep).coh.parent k (by rw [hb]; rfl)
        rw [toCert_some ⟨i, hi⟩ (show (0 : Int) < 3600000 by decide) e2] at hc
        injection hc with hc; subst hc
        exact ⟨⟨⟨_, _, rfl⟩, i, hi⟩, by rw [hsm.v]; exact hb⟩
    refine ex_done F hs2 (.addCert h c) hcn ?_ (fun _ _ e => by cases e) ?_ ?_
    · intro k' hk' hx
      rw [hh'] at hk'; injection hk' with hk'; injection hk' with hk'; subst hk'
      rw [hsm.v, hd] at hx; cases hx.2
    · intro out w' hst
      rcases stp out w' hst with ⟨a1, a2, -, rfl⟩ | ⟨-, rfl, -⟩
      · exact inv2.t.addCert (by rw [crt_keyName a1]; exact a2)
      · exact inv2.t
    · intro out w' hst
      rcases stp out w' hst with ⟨a1, a2, rfl, rfl⟩ | ⟨rfl, rfl, hne⟩
      · exact h1 c _ _ a1 (by rw [← hsm.v]; exact a2) (hss c (by rw [← hsm.v]; exact a2) hc1 hc3) (by rw [hsm.v]) hsm.live ht
      · exact h2 _ _ _ (by decide) hsm ht hne
  · rintro er w1 t1 ⟨hsm, ht, hp, -, hg⟩
    refine h2 _ _ _ (fun h => hp (by rw [h])) hsm ht (fun bits hb he => ?_)
    obtain ⟨d', sig, e1, -⟩ := hg bits hb he
    cases e1

end Ndn.KeyChain
