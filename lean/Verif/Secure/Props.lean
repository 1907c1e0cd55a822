import Verif.Secure.Lemmas
import Verif.KeyChain.Props
/-
C143: what a key chain signs, its receivers accept.
-/
namespace Ndn.Secure
open Ndn.Name Ndn.Tlv Ndn.Block Ndn.Packet Ndn.Packet.Spec Ndn.Interest Ndn.Interest.Spec Ndn.Verify Ndn.Verify.Spec Ndn.Pib Ndn.Pib.Spec
  Ndn.KeyChain Ndn.KeyChain.Spec Ndn.Secure.Spec

variable {σ K : Type} {b : Backend σ} {R : σ → View → Prop} {A : View → PName → Prop} {s : St σ K} {w : World} {C : Crypto K}

private theorem dataAccepted {kw kw' : KWorld K} {d : DObj} {p : SInfo K} {r : Except Err KRes} (hc : Consistent C kw) (h : Signs C kw d p r kw') :
    DataAccepted C kw d p r := by
  constructor
  · intro k loc bits h1 h2 h3 h4
    obtain ⟨d', rfl, h5⟩ := h.key k loc bits h1 h2 h3 h4
    obtain ⟨wr, u, sig, h6, h7, h8⟩ := signedAs_check h5
    have hv : checkData (verify (some (.pub (C.verify bits)))) wr = some true := by
      rw [h8, verify_one]
      exact congrArg some h7
    refine ⟨d', wr, rfl, h6, hv, fun c x hx hk => ?_⟩
    have := hc.2 c x hx
    rw [hk, h2] at this
    injection this with this; subst this
    exact hv
  · intro h1 h2
    obtain ⟨d', rfl, h5⟩ := h.digest h1 h2
    obtain ⟨wr, u, sig, h6, h7, h8⟩ := signedAs_check h5
    refine ⟨d', wr, rfl, h6, ?_⟩
    rw [h8, (verifies_digest C.sha).some _ _ _ (by simp)]
    have h7 : sig = C.sha u := h7
    simp [digestInfo, h7]
  · intro h1 h2 x mac h3 h4 h5
    obtain ⟨d', rfl, h5⟩ := h.hmac h1 h2 x h3 (fun m => by rw [h4]; rfl) h5
    obtain ⟨wr, u, sig, h6, h7, h8⟩ := signedAs_check h5
    refine ⟨d', wr, rfl, h6, ?_⟩
    rw [h8, verify_one]
    have h7 : C.sign x p.alg u = some sig := h7
    rw [h4] at h7
    injection h7 with h7; subst h7
    simp [Ndn.Pipe.VKey.accepts, Ndn.Pipe.hmacOk]

private theorem int_key (F : Faithful b R A) (W : Works C) (hsha : ∀ x, (C.sha x).length = 32) (auto : Bool) (hs : Sim R s.pib w)
    (inv : Inv C w s.tpm) :
    ∀ (new : Bool) f wire base rnd p k loc bits, Signer w p k loc → w.v.key k = some bits → p.alg = .sha256 →
      Can C new f base (keyInfo C p bits loc) rnd →
      ∃ f' s', signInterest C b auto new ⟨f, wire⟩ p rnd s = (.ok ⟨f', none⟩, s') ∧ Stores b (kwOf w s.tpm) s' ∧
      SignedInterest C new f base (keyInfo C p bits loc) rnd f' ∧ Keys C w.v k bits (checkInterest C.sha auto · f'.encode) := by
  have co := (F.rep hs.rep).coh
  intro new f wire base rnd p k loc bits h1 h2 h3 h4
  obtain ⟨x, hx, hm⟩ := inv.held k bits h2
  have hnd := key_not_digest co (k := k) (by rw [show w.v.key k = some bits from h2]; rfl)
  have : Ex R (TT C) s (signInterest C b auto new ⟨f, wire⟩ p rnd) (fun r w' t => Same w w' ∧ Kept s.tpm t ∧
    ∃ f' m sig, r = .ok ⟨f', none⟩ ∧ SigOf C k p.alg s.tpm.keys m sig ∧ SignedInterest C new f base (keyInfo C p bits loc) rnd f' ∧
      ∀ ve V, Verifies ve V → checkInterest C.sha auto ve f'.encode = some (V (keyInfo C p bits loc).type m sig)) := by
    unfold signInterest
    refine ex_bind (ex_prepare F W hs inv p) ?_ ?_
    · rintro ⟨n, si⟩ w1 s1 hs1 ⟨hsm, ⟨ht, k', loc', bits', a1, a2, e⟩ | ⟨ht, hd, e⟩ | ⟨hp, ht, e⟩ | ⟨ht, _, _, _, e | ⟨e, -⟩⟩⟩
      · injection e with e; injection e with e1 e2; subst e1; subst e2
        obtain ⟨rfl, rfl⟩ := signer_unique h1 a1
        rw [show w.v.key k = some bits from h2] at a2; injection a2 with a2; subst a2
        have hc : CacheOk s1.tpm := by rw [ht]; exact inv.cache
        refine (ex_prepared hsha hs1 hc (auto := auto) h4 ?_).mono ?_
        · rintro m e ⟨-, ⟨g, -⟩ | ⟨g, -⟩ | ⟨y, g1, g2, -⟩⟩
          · rw [ht, hx] at g; cases g
          · rw [ht, hx] at g; cases g
          · rw [ht, hx] at g1; injection g1 with g1; injection g1 with g1; subst g1
            obtain ⟨sig, g3, -⟩ := hm m
            rw [h3, g3] at g2; cases g2
        · rintro r w2 t ⟨rfl, h5, h6⟩
          rw [← ht]
          exact ⟨hsm, h5, h6⟩
      · exact absurd hd (signer_not_digest h1)
      · exact absurd hp (signer_not_hmac h1)
      · cases e
      · cases e
    · rintro e w1 t1 ⟨hsm, ⟨-, k', loc', bits', -, -, e'⟩ | ⟨-, -, e'⟩ | ⟨-, -, e'⟩ | ⟨-, a1, -⟩⟩
      · cases e'
      · cases e'
      · cases e'
      · exact absurd h1 (a1 _ _)
  obtain ⟨w', g1, ⟨g2, g3, f', m, sig, g4, g5, g6, g7⟩, -⟩ := this
  refine ⟨f', _, Prod.ext g4 rfl, ⟨?_, fun n => ?_⟩, g6, ?_⟩
  · have := (F.rep g1.rep).ans
    rw [g2.v] at this
    exact this
  · rw [g3.keys]; rfl
  · have hver : C.verify bits m sig = true := by
      rcases g5 with ⟨g, -⟩ | ⟨-, y, g8, g9⟩
      · exact absurd g hnd
      · rw [hx] at g8; injection g8 with g8; injection g8 with g8; subst g8
        obtain ⟨sig', g10, g11⟩ := hm m
        rw [h3, g10] at g9; injection g9 with g9; subst g9
        exact g11
    have hv : checkInterest C.sha auto (verify (some (.pub (C.verify bits)))) f'.encode = some true := by
      rw [g7 _ _ (verifies_key _)]
      exact congrArg some hver
    refine ⟨hv, fun c x hx hk => ?_⟩
    have := inv.certs c x hx
    rw [hk, show w.v.key k = some bits from h2] at this
    show checkInterest C.sha auto (verify (some (.pub (C.verify x.pub)))) f'.encode = some true
    rw [← Option.some.inj this]
    exact hv

private theorem int_digest (F : Faithful b R A) (W : Works C) (hsha : ∀ x, (C.sha x).length = 32) (auto : Bool) (hs : Sim R s.pib w)
    (inv : Inv C w s.tpm) :
    ∀ (new : Bool) f wire base rnd p, Digest w p → Can C new f base (digestInfo p) rnd →
      ∃ f' s', signInterest C b auto new ⟨f, wire⟩ p rnd s = (.ok ⟨f', none⟩, s') ∧ Stores b (kwOf w s.tpm) s' ∧
      SignedInterest C new f base (digestInfo p) rnd f' ∧ checkInterest C.sha auto (verifyCert C.sha none) f'.encode = some true := by
  intro new f wire base rnd p h1 h4
  have : Ex R (TT C) s (signInterest C b auto new ⟨f, wire⟩ p rnd) (fun r w' t => Same w w' ∧ Kept s.tpm t ∧
    ∃ f' m sig, r = .ok ⟨f', none⟩ ∧ SigOf C digestIdentity p.alg s.tpm.keys m sig ∧ SignedInterest C new f base (digestInfo p) rnd f' ∧
      ∀ ve V, Verifies ve V → checkInterest C.sha auto ve f'.encode = some (V (digestInfo p).type m sig)) := by
    unfold signInterest
    refine ex_bind (ex_prepare F W hs inv p) ?_ ?_
    · rintro ⟨n, si⟩ w1 s1 hs1 ⟨hsm, ⟨ht, k', loc', bits', a1, a2, e⟩ | ⟨ht, hd, e⟩ | ⟨hp, ht, e⟩ | ⟨ht, _, _, _, e | ⟨e, -⟩⟩⟩
      · exact absurd h1 (signer_not_digest a1)
      · injection e with e; injection e with e1 e2; subst e1; subst e2
        have hc : CacheOk s1.tpm := by rw [ht]; exact inv.cache
        refine (ex_prepared hsha hs1 hc (auto := auto) h4 ?_).mono ?_
        · rintro m e ⟨g, -⟩; exact absurd rfl g
        · rintro r w2 t ⟨rfl, h5, h6⟩
          rw [← ht]
          exact ⟨hsm, h5, h6⟩
      · exact absurd hp (digest_not_hmac h1)
      · cases e
      · cases e
    · rintro e w1 t1 ⟨hsm, ⟨-, k', loc', bits', -, -, e'⟩ | ⟨-, -, e'⟩ | ⟨-, -, e'⟩ | ⟨-, -, a1, -⟩⟩
      · cases e'
      · cases e'
      · cases e'
      · exact absurd h1 a1
  obtain ⟨w', g1, ⟨g2, g3, f', m, sig, g4, g5, g6, g7⟩, -⟩ := this
  refine ⟨f', _, Prod.ext g4 rfl, ⟨?_, fun n => ?_⟩, g6, ?_⟩
  · have := (F.rep g1.rep).ans
    rw [g2.v] at this
    exact this
  · rw [g3.keys]; rfl
  · rw [g7 _ _ (verifies_digest C.sha)]
    rcases g5 with ⟨-, g⟩ | ⟨g, -⟩
    · simp [digestInfo, g]
    · exact absurd rfl g

private theorem int_hmac (F : Faithful b R A) (W : Works C) (hsha : ∀ x, (C.sha x).length = 32) (auto : Bool) (hs : Sim R s.pib w)
    (inv : Inv C w s.tpm) :
    ∀ (new : Bool) f wire base rnd p, p.type = .hmac → p.name ≠ digestIdentity → ∀ x mac, (get p.name s.tpm.keys).getD p.hmac = some x →
      (∀ m, C.sign x p.alg m = some (mac m)) → Can C new f base (hmacInfo p) rnd →
      ∃ f' s', signInterest C b auto new ⟨f, wire⟩ p rnd s = (.ok ⟨f', none⟩, s') ∧ Answers b s'.pib.db w.v ∧
      SignedInterest C new f base (hmacInfo p) rnd f' ∧ checkInterest C.sha auto (verify (some (.hmac mac))) f'.encode = some true := by
  intro new f wire base rnd p h1 h2 x mac h3 hmac h4
  have : Ex R (TT C) s (signInterest C b auto new ⟨f, wire⟩ p rnd) (fun r w' t => Same w w' ∧
    ∃ f' m, r = .ok ⟨f', none⟩ ∧ SignedInterest C new f base (hmacInfo p) rnd f' ∧
      ∀ ve V, Verifies ve V → checkInterest C.sha auto ve f'.encode = some (V (hmacInfo p).type m (mac m))) := by
    unfold signInterest
    refine ex_bind (ex_prepare F W hs inv p) ?_ ?_
    · rintro ⟨n, si⟩ w1 s1 hs1 ⟨hsm, ⟨ht, k', loc', bits', a1, a2, e⟩ | ⟨ht, hd, e⟩ | ⟨hp, ht, e⟩ | ⟨ht, _, _, _, e | ⟨e, -⟩⟩⟩
      · exact absurd h1 (signer_not_hmac a1)
      · exact absurd h1 (digest_not_hmac hd)
      · injection e with e; injection e with e1 e2; subst e1; subst e2
        have hget : Pib.get p.name s1.tpm.keys = some (some x) := by
          have h3 : (Pib.get p.name s.tpm.keys).getD p.hmac = some x := h3
          rcases ht with ⟨ht, hi⟩ | ⟨hg, ht⟩
          · rw [ht]
            obtain ⟨y, hy⟩ := Option.isSome_iff_exists.mp hi
            rw [hy] at h3 ⊢
            exact congrArg some h3
          · rw [hg] at h3
            rw [ht]
            have h3 : p.hmac = some x := h3
            simp [get_put, h3]
        have hc : CacheOk s1.tpm := by
          rcases ht with ⟨ht, -⟩ | ⟨hg, ht⟩
          · rw [ht]; exact inv.cache
          · rw [ht]; exact inv.cache.put _ hg
        refine (ex_prepared hsha hs1 hc (auto := auto) (si := hmacInfo p) h4 ?_).mono ?_
        · rintro m e ⟨-, ⟨g, -⟩ | ⟨g, -⟩ | ⟨y, g1, g2, -⟩⟩
          · rw [hget] at g; cases g
          · rw [hget] at g; cases g
          · rw [hget] at g1; injection g1 with g1; injection g1 with g1; subst g1
            rw [hmac] at g2; cases g2
        · rintro r w2 t ⟨rfl, h5, f', m, sig, h6, h7, h8, h9⟩
          refine ⟨hsm, f', m, h6, h8, ?_⟩
          rcases h7 with ⟨h7, -⟩ | ⟨-, y, g8, g9⟩
          · exact absurd h7 h2
          · rw [hget] at g8; injection g8 with g8; injection g8 with g8; subst g8
            rw [hmac] at g9; injection g9 with g9; subst g9
            exact h9
      · cases e
      · cases e
    · rintro e w1 t1 ⟨hsm, ⟨-, k', loc', bits', -, -, e'⟩ | ⟨-, -, e'⟩ | ⟨-, -, e'⟩ | ⟨-, -, -, a1, -⟩⟩
      · cases e'
      · cases e'
      · cases e'
      · exact absurd h1 a1
  obtain ⟨w', g1, ⟨g2, f', m, g4, g6, g7⟩, -⟩ := this
  refine ⟨f', _, Prod.ext g4 rfl, ?_, g6, ?_⟩
  · have := (F.rep g1.rep).ans
    rw [g2.v] at this
    exact this
  · rw [g7 _ _ (verifies_key _)]
    simp [Ndn.Pipe.VKey.accepts, Ndn.Pipe.hmacOk]

private theorem int_none (F : Faithful b R A) (W : Works C) (auto : Bool) (hs : Sim R s.pib w)
    (inv : Inv C w s.tpm) :
    ∀ (new : Bool) o rnd p, (∀ k loc, ¬ Signer w p k loc) → ¬ Digest w p → p.type ≠ .hmac →
      ∃ e s', signInterest C b auto new o p rnd s = (.error e, s') ∧ (e = .signing ∨ e = .invalid) ∧ Stores b (kwOf w s.tpm) s' := by
  intro new o rnd p h1 h2 h3
  have : Ex R (TT C) s (signInterest C b auto new o p rnd) (fun r w' t => Same w w' ∧ t = s.tpm ∧ ∃ e, r = .error e ∧ (e = .signing ∨ e = .invalid)) := by
    unfold signInterest
    refine ex_bind (ex_prepare F W hs inv p) ?_ ?_
    · rintro ⟨n, si⟩ w1 s1 hs1 ⟨hsm, ⟨ht, k', loc', bits', a1, a2, e⟩ | ⟨ht, hd, e⟩ | ⟨hp, ht, e⟩ | ⟨ht, _, _, _, e | ⟨e, -⟩⟩⟩
      · exact absurd a1 (h1 _ _)
      · exact absurd hd h2
      · exact absurd hp h3
      · cases e
      · cases e
    · rintro e w1 t1 ⟨hsm, ⟨-, k', loc', bits', -, -, e'⟩ | ⟨-, -, e'⟩ | ⟨-, -, e'⟩ | ⟨ht, -, -, -, e' | ⟨e', -⟩⟩⟩
      · cases e'
      · cases e'
      · cases e'
      · injection e' with e'; exact ⟨hsm, ht, e, rfl, .inl e'⟩
      · injection e' with e'; exact ⟨hsm, ht, e, rfl, .inr e'⟩
  obtain ⟨w', g1, ⟨g2, g3, e, g4, g5⟩, -⟩ := this
  refine ⟨e, _, Prod.ext g4 rfl, g5, ?_, fun n => ?_⟩
  · have := (F.rep g1.rep).ans
    rw [g2.v] at this
    exact this
  · rw [g3]; rfl

private theorem interestsAccepted (F : Faithful b R A) (W : Works C) (hsha : ∀ x, (C.sha x).length = 32) (auto : Bool) (hs : Sim R s.pib w)
    (inv : Inv C w s.tpm) : InterestsAccepted C b auto (kwOf w s.tpm) s :=
  ⟨int_key F W hsha auto hs inv, int_digest F W hsha auto hs inv, int_hmac F W hsha auto hs inv, int_none F W auto hs inv⟩

private theorem accepted (F : Faithful b R A) (W : Works C) (hsha : ∀ x, (C.sha x).length = 32) (auto : Bool) {P : KWorld K → KOp K → Prop}
    (hP : ∀ kw op, P kw op → KFitsA C A kw op) (ops : List (KOp K)) {s : St σ K} {w : World} (hs : Sim R s.pib w) (inv : Inv C w s.tpm) :
    Follows C b P (fun kw op r s' kw' => (∀ d p, op = .sign d p → DataAccepted C kw d p r) ∧ InterestsAccepted C b auto kw' s') (kwOf w s.tpm) s ops := by
  refine follows F W hP ?_ ops hs inv
  rintro s w op r hs inv - s' w' hs' inv' hk -
  refine ⟨?_, interestsAccepted F W hsha auto hs' inv'⟩
  rintro d p rfl
  obtain ⟨rs, h1, rfl⟩ := hk
  exact dataAccepted (consistent_of inv) (signs_of (F.rep hs.rep).coh (consistent_of inv) h1)

private theorem fitsAny (kw : KWorld K) (op : KOp K) (h : KFits C kw op) : KFitsA C (fun _ _ => True) kw op := ⟨h, fun _ _ _ _ _ => trivial⟩

private theorem fitsMem (kw : KWorld K) (op : KOp K) (h : KFitsMemory C kw op) : KFitsA C (fun v k => DropsDefault v (.removeKey k)) kw op :=
  ⟨h.1, fun x k n e hn => by subst e; exact h.2 n hn⟩

/-- **C143** over `pib-sqlite3`: whatever was called before, the Data packets signed are accepted by their receivers, and after
each call so are the Interests signed, in both formats. -/
theorem C143_sqlite_partial (W : Works C) (hsha : ∀ x, (C.sha x).length = 32) (auto : Bool) (ops : List (KOp K)) :
    Follows C sqlite (KFits C) (fun kw op r s' kw' => (∀ d p, op = .sign d p → DataAccepted C kw d p r) ∧ InterestsAccepted C sqlite auto kw' s')
      KWorld.init (St.init sqlite) ops :=
  accepted sqlite_faithful W hsha auto fitsAny ops (s := St.init sqlite) (start_sim sqlite_faithful) Inv.init

/-- **C143** over `pib-memory`. -/
theorem C143_memory_partial (W : Works C) (hsha : ∀ x, (C.sha x).length = 32) (auto : Bool) (ops : List (KOp K)) :
    Follows C memory (KFitsMemory C) (fun kw op r s' kw' => (∀ d p, op = .sign d p → DataAccepted C kw d p r) ∧ InterestsAccepted C memory auto kw' s')
      KWorld.init (St.init memory) ops :=
  accepted memory_faithful W hsha auto fitsMem ops (s := St.init memory) (start_sim memory_faithful) Inv.init

/-! ### Examples -/

/-- `toy` with digests of 32 octets. -/
def toy32 : Crypto UInt8 := { toy with sha := fun m => List.replicate 32 (UInt8.ofNat m.length) }

theorem toy32_works : Works toy32 := ⟨toy_works.pair, toy_works.hmac, toy_works.kind⟩

theorem toy32_sha (x : Bytes) : (toy32.sha x).length = 32 := by simp [toy32]

/-- An Interest that can be signed with a digest. -/
theorem plainA_signable : Signable toy32 plainA [⟨8, [65]⟩] (digestInfo (SInfo.init : SInfo UInt8)) [1, 2, 3, 4] where
  wf := ⟨plainA_wf.name, plainA_wf.nonempty, Or.inl ⟨by decide, by decide⟩, plainA_wf.hint, plainA_wf.nonce, plainA_wf.lifetime, plainA_wf.params,
    plainA_wf.params0, plainA_wf.params1, by decide⟩
  name := Or.inl ⟨rfl, rfl⟩
  unsigned := by intro e he; simp [plainA, IFields.cleared] at he
  info := ⟨⟨0, rfl, by decide⟩, (by intro k hk; cases hk), (by intro b hb; cases hb), by
    have h := sigWF_ecdsa.size
    intro t w hw
    have hw : some (tlvBytes t (nniTlv 27 0 ++ [] ++ [])) = some w := hw
    injection hw with hw
    subst hw
    have := h t _ rfl
    simpa [SigInfo.encode, nniTlv, tlvBytes, writeNonNegativeInteger] using this⟩
  size := by
    intro sig hsig
    have hl : sig.length ≤ 32 := by
      rcases hsig with ⟨x, a, m, h⟩ | ⟨m, rfl⟩
      · injection h with h; subst h; simp
      · simp [toy32]
    have h5 : ∀ n, (writeVarNumber n).length ≤ 9 := by
      intro n; rw [writeVarNumber_length]; unfold sizeOfVarNumber; (repeat' split) <;> omega
    have ht : ∀ t v, (tlvBytes t v).length ≤ 18 + v.length := by
      intro t v; unfold tlvBytes
      have := h5 t; have := h5 v.length
      simp only [List.length_append]; omega
    rw [IFields.encode_eq]
    refine Nat.lt_of_le_of_lt (ht _ _) ?_
    have hsv := ht 46 sig
    have hn : ∀ x, (nameRaw [⟨8, [65]⟩, ⟨2, toy32.sha x⟩]).wire.length ≤ 100 := by
      intro x
      rw [nameRaw_wire]
      unfold encodeComps
      refine Nat.le_trans (ht _ _) ?_
      have := ht 8 [65]; have := ht 2 (toy32.sha x)
      rw [toy32_sha] at this
      have a1 := h5 8; have a2 := h5 1; have a3 := h5 2; have a4 := h5 32
      simp only [List.flatMap_cons, List.flatMap_nil, Comp.encode, List.length_append, List.append_nil, List.length_cons, List.length_nil, toy32_sha, Nat.zero_add] at *
      omega
    have hw : ((withSignature toy32.sha plainA [⟨8, [65]⟩] (digestInfo (SInfo.init : SInfo UInt8)) [1, 2, 3, 4] sig).elems.map Raw.wire).flatten =
        (nameRaw [⟨8, [65]⟩, ⟨2, toy32.sha (wires (toSign plainA (digestInfo (SInfo.init : SInfo UInt8)) ++ [binaryBlock 46 sig]))⟩]).wire ++
          ((((plainA.head ++ toSign plainA (digestInfo (SInfo.init : SInfo UInt8))).map Raw.wire).flatten) ++ (tlvBytes 46 sig ++ [])) := by
      have hh : (withSignature toy32.sha plainA [⟨8, [65]⟩] (digestInfo (SInfo.init : SInfo UInt8)) [1, 2, 3, 4] sig).head = plainA.head := rfl
      unfold IFields.elems
      rw [hh]
      simp [withSignature, binaryBlock]
    have hc : (((plainA.head ++ toSign plainA (digestInfo (SInfo.init : SInfo UInt8))).map Raw.wire).flatten).length = 13 := by decide
    have := hn (wires (toSign plainA (digestInfo (SInfo.init : SInfo UInt8)) ++ [binaryBlock 46 sig]))
    rw [hw]
    simp only [List.length_append, List.length_nil, hc]
    omega

/-- An identity with the key `[7]` is created. -/
def startId : List (KOp UInt8) := [.createIdentity [⟨8, [97]⟩] .random ⟨7, [5], 1, binaryBlock 253 []⟩]

/-- What is sent if the Interest `/A` is signed then. -/
def sentBy (new : Bool) (p : SInfo UInt8) : Option Bytes :=
  match (signInterest toy32 sqlite true new ⟨plainA, none⟩ p [1, 2, 3, 4] (krun toy32 sqlite startId (St.init sqlite)).2).1 with
  | .ok o => some o.f.encode
  | .error _ => none

/-- Interests signed with the default key, and with a digest. -/
example : ∀ new, (sentBy new SInfo.init).bind (checkInterest toy32.sha true (verify (some (.pub (toy32.verify [7]))))) = some true := by decide +kernel
example : ∀ new, (sentBy new (SInfo.init.setSha256Signing)).bind (checkInterest toy32.sha true (verifyCert toy32.sha none)) = some true := by decide +kernel

end Ndn.Secure
