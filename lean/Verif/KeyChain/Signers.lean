import Verif.KeyChain.Sign
import Verif.KeyChain.HistSpec
import Verif.Packet.Props
/-
Who signs, and packets that can be encoded.
-/
namespace Ndn.KeyChain
open Ndn.Name Ndn.Tlv Ndn.Block Ndn.Packet Ndn.Packet.Spec Ndn.Pib Ndn.Pib.Spec Ndn.KeyChain.Spec

variable {σ K : Type} {w : World} {C : Crypto K}

theorem identGiven_unique {p : SInfo K} {i j : PName} (h : IdentGiven w p i) (h' : IdentGiven w p j) : i = j := by
  rcases h with ⟨x, h1, h2⟩ | ⟨h1, h2, -⟩ <;> rcases h' with ⟨y, h3, h4⟩ | ⟨h3, h4, -⟩
  · rw [h1] at h3; injection h3 with h3; subst h3
    rw [h2] at h4; injection h4 with h4; injection h4
  · exact absurd ⟨x, i, h1, h2⟩ h3
  · exact absurd ⟨y, j, h3, h4⟩ h1
  · rw [← h2, ← h4]

theorem keyGiven_unique {p : SInfo K} {i j : PName} (h : KeyGiven w p i) (h' : KeyGiven w p j) : i = j := by
  rcases h with ⟨x, h1, h2⟩ | ⟨h1, h2, -⟩ <;> rcases h' with ⟨y, h3, h4⟩ | ⟨h3, h4, -⟩
  · rw [h1] at h3; injection h3 with h3; subst h3
    rw [h2] at h4; injection h4 with h4; injection h4
  · exact absurd ⟨x, i, h1, h2⟩ h3
  · exact absurd ⟨y, j, h3, h4⟩ h1
  · rw [← h2, ← h4]

theorem signer_unique {p : SInfo K} {k loc k' loc' : PName} (h : Signer w p k loc) (h' : Signer w p k' loc') : k = k' ∧ loc = loc' := by
  cases h with
  | default a1 a2 a3 =>
    cases h' with
    | default b1 b2 b3 =>
      rw [a2] at b2; injection b2 with b2; subst b2
      rw [a3] at b3; injection b3 with b3; subst b3
      exact ⟨rfl, rfl⟩
    | ident b1 => rw [a1] at b1; cases b1
    | key b1 => rw [a1] at b1; cases b1
    | cert b1 => rw [a1] at b1; cases b1
  | ident a1 a2 a3 =>
    cases h' with
    | default b1 => rw [a1] at b1; cases b1
    | ident b1 b2 b3 =>
      have := identGiven_unique a2 b2; subst this
      rw [a3] at b3; injection b3 with b3; subst b3
      exact ⟨rfl, rfl⟩
    | key b1 => rw [a1] at b1; cases b1
    | cert b1 => rw [a1] at b1; cases b1
  | key a1 a2 =>
    cases h' with
    | default b1 => rw [a1] at b1; cases b1
    | ident b1 => rw [a1] at b1; cases b1
    | key b1 b2 =>
      have := keyGiven_unique a2 b2; subst this
      exact ⟨rfl, rfl⟩
    | cert b1 => rw [a1] at b1; cases b1
  | cert a1 a2 =>
    cases h' with
    | default b1 => rw [a1] at b1; cases b1
    | ident b1 => rw [a1] at b1; cases b1
    | key b1 => rw [a1] at b1; cases b1
    | cert b1 b2 => exact ⟨certName_inj a2 b2, rfl⟩

theorem signer_not_digest {p : SInfo K} {k loc : PName} (h : Signer w p k loc) : ¬ Digest w p := by
  rintro (hd | ⟨hd, hn⟩)
  · cases h with
    | default a1 | ident a1 | key a1 | cert a1 => rw [a1] at hd; cases hd
  · cases h with
    | default a1 a2 => rw [a2] at hn; cases hn
    | ident a1 | key a1 | cert a1 => rw [a1] at hd; cases hd

theorem signer_not_hmac {p : SInfo K} {k loc : PName} (h : Signer w p k loc) : p.type ≠ .hmac := by
  intro hd
  cases h with
  | default a1 | ident a1 | key a1 | cert a1 => rw [a1] at hd; cases hd

theorem digest_not_hmac {p : SInfo K} (h : Digest w p) : p.type ≠ .hmac := by
  intro hd
  rcases h with h | ⟨h, -⟩ <;> (rw [h] at hd; cases hd)

theorem signed_as {d d' : DObj} {si : SigInfo} {u sig : Bytes} (hw : DataWF { d.f with sigInfo := si, sigValue := some (binaryBlock 23 sig) })
    (h : Signed d si u sig d') {ok : Bytes → Bytes → Prop} (hok : ok u sig) : SignedAs d si ok d' := by
  obtain ⟨h1, wr, h2⟩ := h
  obtain ⟨d2, w2, b, es, h3, h4, h5, h6, h7⟩ := C26_signing { d.f with sigInfo := si } sig hw u h1 (DObj.reset { d.f with sigInfo := si })
  rw [h2] at h3
  injection h3 with e1 e2
  injection e2 with e2
  subst e1; subst e2
  have hfin : d'.wire = some wr ∧ dataDecode b = some d'.f := ?_
  exact ⟨sig, wr, b, es, u, h4, hfin.1, h5, hfin.2, h6, h7, hok⟩
  unfold DObj.finish at h2
  simp only at h2
  split at h2
  · cases h2
  · rename_i bb hbb
    have e : (bb.wire = wr) ∧ ((DObj.reset { d.f with sigInfo := si }).wireDecode bb).1 = true := by
      injection h2 with e1 e2
      split at e2
      · rename_i ht
        injection e2 with e2
        exact ⟨by rw [← e2]; exact (fromRange_iff.mp hbb).1, ht⟩
      · cases e2
    injection h2 with e1 e2
    have hx : (DObj.reset { d.f with sigInfo := si }).wireDecode bb = (true, d') := Prod.ext e.2 e1
    refine ⟨by rw [(DObj.wireDecode_fields hx).2.1, e.1], ?_⟩
    have h8 : fromBuffer wr = some (bb, []) :=
      fromBuffer_iff.mpr ⟨by rw [e.1, List.append_nil], by rw [(fromRange_iff.mp hbb).1]; exact (fromRange_iff.mp hbb).2⟩
    rw [h5] at h8
    injection h8 with h8
    injection h8 with h8
    rw [h8]
    exact (DObj.wireDecode_fields hx).1

theorem finish_some {f : DFields} {u sig : Bytes} (hw : DataWF { f with sigValue := some (binaryBlock 23 sig) }) (hu : f.encodeUnsigned = some u) (d : DObj) :
    (d.finish u sig).2 ≠ none := by
  obtain ⟨d2, w2, b, es, h3, -⟩ := C26_signing f sig hw u hu d
  rw [h3]; simp

theorem unsigned_some {f : DFields} {sig : Bytes} (hw : DataWF { f with sigValue := some (binaryBlock 23 sig) }) : ∃ u, f.encodeUnsigned = some u :=
  ⟨_, DFields.encodeUnsigned_eq (f := { f with sigValue := some (binaryBlock 23 sig) }) hw⟩

end Ndn.KeyChain
