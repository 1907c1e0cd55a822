import Verif.KeyChain.Hist
namespace Ndn.KeyChain
open Ndn.Name Ndn.Tlv Ndn.Block Ndn.Packet Ndn.Packet.Spec Ndn.Pib Ndn.Pib.Spec Ndn.KeyChain.Spec

variable {σ K : Type} {w : World} {C : Crypto K}

/-- A packet that can be encoded is signed. -/
theorem signRes_ok {d : DObj} {si : SigInfo} {n : PName} {a : Alg} {priv : PName → Option (Option K)} {r : Except Err DObj}
    (h : SignRes C d si n a priv r) (he : Encodable C d si) {ok : Bytes → Bytes → Prop}
    (hs : (n = digestIdentity ∧ ∀ u, ok u (C.sha u)) ∨
      (n ≠ digestIdentity ∧ ∃ x, priv n = some (some x) ∧ ∀ u, ∃ sig, C.sign x a u = some sig ∧ ok u sig)) :
    ∃ d', r = .ok d' ∧ SignedAs d si ok d' := by
  unfold SignRes at h
  have hu : ∃ u, { d.f with sigInfo := si : DFields }.encodeUnsigned = some u := unsigned_some (he (C.sha []) (.inr ⟨_, rfl⟩))
  obtain ⟨u, hu⟩ := hu
  rw [hu] at h
  dsimp only at h
  rcases hs with ⟨h1, h2⟩ | ⟨h1, x, h2, h3⟩
  · rw [if_pos h1] at h
    have hw := he (C.sha u) (.inr ⟨_, rfl⟩)
    rcases h with ⟨d', h, rfl⟩ | ⟨h, -⟩
    · exact ⟨d', rfl, signed_as hw h (h2 u)⟩
    · exact absurd h (finish_some hw hu _)
  · rw [if_neg h1, h2] at h
    obtain ⟨sig, h4, h5⟩ := h3 u
    dsimp only at h
    rw [h4] at h
    have hw := he sig (.inl ⟨x, a, u, h4⟩)
    rcases h with ⟨d', h, rfl⟩ | ⟨h, -⟩
    · exact ⟨d', rfl, signed_as hw h h5⟩
    · exact absurd h (finish_some hw hu _)

theorem signs_of {kw kw' : KWorld K} {d : DObj} {p : SInfo K} {rs : Except Err DObj} (co : Coherent kw.pib.v) (hc : Consistent C kw)
    (h : SignStep C kw p d rs kw') : Signs C kw d p (rs.map .data) kw' := by
  obtain ⟨hv, hl, h⟩ := h
  constructor
  · intro k loc bits h1 h2 h3 h4
    rcases h with ⟨k', loc', bits', a1, a2, a3, a4⟩ | ⟨a1, -⟩ | ⟨a1, -⟩ | ⟨-, a1, -⟩
    · obtain ⟨rfl, rfl⟩ := signer_unique h1 a1
      rw [h2] at a2; injection a2 with a2; subst a2
      obtain ⟨x, hx, hm⟩ := hc.1 k bits h2
      rw [h3] at a4
      obtain ⟨d', rfl, hd⟩ := signRes_ok a4 h4 (ok := fun u sig => C.verify bits u sig = true)
        (.inr ⟨key_not_digest co (by rw [h2]; rfl), x, hx, fun u => hm u⟩)
      exact ⟨d', rfl, hd⟩
    · exact absurd a1 (signer_not_digest h1)
    · exact absurd a1 (signer_not_hmac h1)
    · exact absurd h1 (a1 _ _)
  · intro h1 h2
    rcases h with ⟨k', loc', bits', a1, a2, a3, a4⟩ | ⟨a1, a2, a3⟩ | ⟨a1, -⟩ | ⟨-, -, a1, -⟩
    · exact absurd h1 (signer_not_digest a1)
    · obtain ⟨d', rfl, hd⟩ := signRes_ok a3 h2 (ok := fun u sig => sig = C.sha u) (.inl ⟨rfl, fun _ => rfl⟩)
      exact ⟨d', rfl, hd⟩
    · exact absurd a1 (digest_not_hmac h1)
    · exact absurd h1 a1
  · intro h1 h2 x hx hs he
    rcases h with ⟨k', loc', bits', a1, a2, a3, a4⟩ | ⟨a1, a2, a3⟩ | ⟨a1, a2, a3⟩ | ⟨-, -, -, a1, -⟩
    · exact absurd h1 (signer_not_hmac a1)
    · exact absurd h1 (digest_not_hmac a1)
    · have hp : kw'.priv p.name = some (some x) := by
        rw [a2]
        cases e : kw.priv p.name with
        | none =>
          rw [e] at hx
          simp only [Option.isSome_none, Bool.false_eq_true, if_false, upd, if_true]
          rw [show p.hmac = some x from hx]
        | some y =>
          rw [e] at hx
          simp only [Option.isSome_some, if_true]
          rw [e, show y = some x from hx]
      obtain ⟨d', rfl, hd⟩ := signRes_ok a3 he (ok := fun u sig => C.sign x p.alg u = some sig) (.inr ⟨h2, x, hp, fun u => by
        obtain ⟨sig, hsig⟩ := Option.isSome_iff_exists.mp (hs u)
        exact ⟨sig, hsig, hsig⟩⟩)
      exact ⟨d', rfl, hd⟩
    · exact absurd h1 a1
  · intro h1 h2 h3
    rcases h with ⟨k', loc', bits', a1, -⟩ | ⟨a1, -⟩ | ⟨a1, -⟩ | ⟨-, -, -, -, a1⟩
    · exact absurd a1 (h1 _ _)
    · exact absurd a1 h2
    · exact absurd a1 h3
    · rcases a1 with rfl | ⟨rfl, -⟩
      · exact .inl rfl
      · exact .inr rfl
  · exact ⟨hv, hl⟩
  · intro h1
    rcases h with ⟨k', loc', bits', -, -, a3, -⟩ | ⟨-, a2, -⟩ | ⟨a1, a2, -⟩ | ⟨a1, -⟩
    · exact a3
    · exact a2
    · rcases h1 with h1 | h1
      · exact absurd a1 h1
      · rw [a2, if_pos h1]
    · exact a1

end Ndn.KeyChain
