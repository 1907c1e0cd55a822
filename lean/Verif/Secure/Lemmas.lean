import Verif.Secure.Spec
import Verif.KeyChain.SignLemmas
namespace Ndn.Secure
open Ndn.Name Ndn.Tlv Ndn.Block Ndn.Packet Ndn.Packet.Spec Ndn.Interest Ndn.Interest.Spec Ndn.Verify Ndn.Verify.Spec Ndn.Pib Ndn.Pib.Spec
  Ndn.KeyChain Ndn.KeyChain.Spec Ndn.Secure.Spec

variable {σ K α β : Type} {b : Backend σ} {R : σ → View → Prop} {A : View → PName → Prop}
  {T : View → List (PName × Option K) → Prop} {s : St σ K} {w : World} {C : Crypto K}

theorem sigOf_made {n : PName} {a : Alg} {keys : List (PName × Option K)} {u sig : Bytes} (h : SigOf C n a keys u sig) : Made C sig := by
  rcases h with ⟨-, h⟩ | ⟨-, x, -, h⟩
  · exact .inr ⟨u, h⟩
  · exact .inl ⟨x, a, u, h⟩

/-- What signing gives once it is known who signs. -/
theorem ex_prepared (hsha : ∀ x, (C.sha x).length = 32) (hs : Sim R s.pib w) (hc : CacheOk s.tpm) {auto new : Bool} {f : IFields} {wire : Option Raw}
    {base : List Comp} {si : SigInfo} {rnd : Bytes} {n : PName} {a : Alg} (hcan : Can C new f base si rnd)
    (hno : ∀ m e, ¬ NoSig C n a s.tpm.keys m e) :
    Ex R T s (signPrepared C auto new ⟨f, wire⟩ n si a rnd) (fun r w' t => w' = w ∧ Kept s.tpm t ∧
      ∃ f' m sig, r = .ok ⟨f', none⟩ ∧ SigOf C n a s.tpm.keys m sig ∧ SignedInterest C new f base si rnd f' ∧
        ∀ ve V, Verifies ve V → checkInterest C.sha auto ve f'.encode = some (V si.type m sig)) := by
  cases new with
  | true =>
    obtain ⟨h1, h2, h3, h4, h5⟩ : Signable C f base si rnd := hcan
    have core := fun sig (hm : Made C sig) ve V (hv : Verifies ve V) =>
      new_core C.sha hsha auto f wire base si sig rnd hv h1 h2 h3 h4 (h5 sig hm)
    obtain ⟨⟨o1, o2, r1, r2, g1, g2, g3, -⟩, -⟩ := core (C.sha []) (.inr ⟨_, rfl⟩) _ _ (verifies_digest C.sha)
    have steps : ∀ sig, Made C sig → o2.setSigValue C.sha sig = (true, ⟨withSignature C.sha f base si rnd sig, none⟩) := by
      intro sig hm
      obtain ⟨⟨o1', o2', r1', r2', k1, k2, k3, k4⟩, -⟩ := core sig hm _ _ (verifies_digest C.sha)
      rw [g1] at k1; injection k1 with _ k1; subst k1
      rw [g2] at k2; injection k2 with k2; subst k2
      exact k4
    unfold signPrepared
    rw [if_pos rfl, g1]
    dsimp only
    rw [g2]
    dsimp only
    rw [g3]
    refine ex_bind (Q1 := fun r w' t => w' = w ∧ Kept s.tpm t ∧ ∃ sig, r = .ok sig ∧ SigOf C n a s.tpm.keys (message f base si) sig)
      (ex_rawSign hs hc _ n a (fun sig t' h ht => ⟨rfl, ht, sig, rfl, h⟩) (fun e t' h ht => absurd h (hno _ _))) ?_ ?_
    · rintro sig w1 s1 hs1 ⟨rfl, ht, sig', e, h⟩
      injection e with e; subst e
      rw [steps sig (sigOf_made h)]
      exact ex_pure hs1 _ ⟨rfl, ht, _, _, sig, rfl, h, ⟨sig, rfl⟩, fun ve V hv => (core sig (sigOf_made h) ve V hv).2⟩
    · rintro e w1 t1 ⟨-, -, sig, e', -⟩; cases e'
  | false =>
    obtain ⟨h1, h2, h3, h4⟩ : SignableOld C f si := hcan
    have he := SigInfo.encode_eq h3 22
    have hb := fromRange_tlvBytes (t := 22) (by omega) (by omega) (SigInfo.elems_size h3)
    have henc : SObj.wireEncode ⟨none, si⟩ 22 = some (⟨some (binaryBlock 22 ((si.elems.map Raw.wire).flatten)), si⟩, binaryBlock 22 ((si.elems.map Raw.wire).flatten)) := by
      unfold SObj.wireEncode
      dsimp only
      rw [he]
      dsimp only
      rw [hb]
    have hwire : (binaryBlock 22 ((si.elems.map Raw.wire).flatten)).wire = tlvBytes 22 ((si.elems.map Raw.wire).flatten) := rfl
    have steps : ∀ sig, (⟨f, wire⟩ : IObj).step C.sha auto (.setName (f.name ++ [⟨8, tlvBytes 22 ((si.elems.map Raw.wire).flatten)⟩] ++ [⟨8, tlvBytes 23 sig⟩])) =
        (true, ⟨oldSigned f (tlvBytes 22 ((si.elems.map Raw.wire).flatten)) sig, none⟩) := by
      intro sig
      obtain ⟨ib, k1, k2⟩ := signOld_spec C.sha auto ⟨f, wire⟩ ⟨none, si⟩ (fun _ => sig) h1.digest rfl h3
      unfold signOld at k2
      rw [henc] at k2
      dsimp only at k2
      rw [hwire] at k2
      rw [he] at k1; injection k1 with k1; subst k1
      split at k2
      · rename_i o ho
        rw [ho]
        injection k2 with k2
        rw [k2]
        unfold oldSigned
        simp
      · cases k2
    unfold signPrepared
    rw [if_neg (by simp), henc]
    dsimp only
    rw [hwire]
    generalize hib : tlvBytes 22 ((si.elems.map Raw.wire).flatten) = ib at *
    refine ex_bind (Q1 := fun r w' t => w' = w ∧ Kept s.tpm t ∧ ∃ sig, r = .ok sig ∧ SigOf C n a s.tpm.keys (compOctets (f.name ++ [⟨8, ib⟩])) sig)
      (ex_rawSign hs hc _ n a (fun sig t' h ht => ⟨rfl, ht, sig, rfl, h⟩) (fun e t' h ht => absurd h (hno _ _))) ?_ ?_
    · rintro sig w1 s1 hs1 ⟨rfl, ht, sig', e, h⟩
      injection e with e; subst e
      rw [steps sig]
      exact ex_pure hs1 _ ⟨rfl, ht, _, _, sig, rfl, h, ⟨ib, sig, he, rfl⟩, fun ve V hv =>
        old_core C.sha auto f (oldSigned f ib sig) ⟨none, si⟩ sig hv ib _ h1 h3 h2 he rfl rfl rfl (h4 ib sig he (sigOf_made h))⟩
    · rintro e w1 t1 ⟨-, -, sig, e', -⟩; cases e'

/-- The receiver of a Data packet that was signed. -/
theorem signedAs_check {d d' : DObj} {si : SigInfo} {ok : Bytes → Bytes → Prop} (h : SignedAs d si ok d') :
    ∃ w u sig, d'.wire = some w ∧ ok u sig ∧ ∀ ve, checkData ve w = some (ve ⟨si.type, [u], sig⟩) := by
  obtain ⟨sig, w, blk, es, u, h1, h2, h3, h4, h5, h6, h7⟩ := h
  refine ⟨w, u, sig, h2, h7, fun ve => ?_⟩
  unfold checkData
  rw [h3]
  dsimp only
  rw [h4, Option.map_some]
  unfold parseData
  rw [parseElements_iff.2 h5]
  dsimp only
  rw [h6, h1]
  rfl

end Ndn.Secure
