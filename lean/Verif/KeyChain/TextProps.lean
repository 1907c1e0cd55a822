import Verif.KeyChain.Text
import Verif.Name.UriProps
/-
C92: the strings of `SigningInfo`.
-/
namespace Ndn.KeyChain
open Ndn.Name Ndn.Name.Spec Ndn.Tlv Ndn.Block Ndn.Packet Ndn.Pib

variable {K : Type}

/-! ## Specification -/

/-- What a signing string asks for, from the documentation in security/signing-info.hpp 103-115. -/
inductive Asks (C : Crypto K) (raw : Bytes → Option K) (alt : Bool) : Bytes → SType → PName → Option K → Prop
  | default : Asks C raw alt [] .null [] none
  | digest : Asks C raw alt (idText ++ 58 :: toUri alt digestIdentity) .sha256 [] none
  | ident {u n} : u ≠ toUri alt digestIdentity → fromUri u = some n → Asks C raw alt (idText ++ 58 :: u) .ident n none
  | key {u n} : fromUri u = some n → Asks C raw alt (keyText ++ 58 :: u) .key n none
  | cert {u n} : fromUri u = some n → Asks C raw alt (certText ++ 58 :: u) .cert n none
  | hmac {u x} : raw u = some x → Asks C raw alt (hmacText ++ 58 :: u) .hmac (hmacIdentity ++ [⟨8, C.keyDigest x⟩]) (some x)

/-- The `SigningInfo` for it, with SHA-256 and nothing in the SignatureInfo. -/
def asked (type : SType) (n : PName) (k : Option K) : SInfo K := ⟨type, n, none, none, k, .sha256, SigInfo.init, false⟩

/-! ## Proofs -/

private theorem split_text (s u : Bytes) (h : (58 : UInt8) ∉ s) :
    (s ++ 58 :: u).takeWhile (· ≠ 58) = s ∧ (s ++ 58 :: u).dropWhile (· ≠ 58) = 58 :: u := takeWhile_stop 58 s u h

private theorem fromText_split (C : Crypto K) (raw : Bytes → Option K) (alt : Bool) (s u : Bytes) (h : (58 : UInt8) ∉ s) :
    SInfo.fromText C raw alt (s ++ 58 :: u) =
      if s = idText then
        if u = toUri alt digestIdentity then some (SInfo.init.setSha256Signing)
        else (fromUri u).map SInfo.init.setSigningIdentity
      else if s = keyText then (fromUri u).map SInfo.init.setSigningKeyName
      else if s = certText then (fromUri u).map SInfo.init.setSigningCertName
      else if s = hmacText then (raw u).map (fun k => { SInfo.init.setSigningHmac C k with alg := .sha256 })
      else none := by
  unfold SInfo.fromText
  rw [if_neg (by simp), (split_text s u h).2, (split_text s u h).1]

/-- **C92**: a string is accepted just if it is one of the documented forms, and the result is what it asks for. -/
theorem C92_read (C : Crypto K) (raw : Bytes → Option K) (alt : Bool) (t : Bytes) (p : SInfo K) :
    SInfo.fromText C raw alt t = some p ↔ ∃ type n k, Asks C raw alt t type n k ∧ p = asked type n k := by
  constructor
  · intro h
    by_cases ht : t = []
    · subst ht
      injection h with h
      exact ⟨_, _, _, .default, h.symm⟩
    · have hsp : t.takeWhile (· ≠ 58) ++ t.dropWhile (· ≠ 58) = t := List.takeWhile_append_dropWhile
      have hnot : (58 : UInt8) ∉ t.takeWhile (· ≠ 58) := by
        intro hm
        have : ∀ (l : Bytes), (58 : UInt8) ∉ l.takeWhile (· ≠ 58) := by
          intro l
          induction l with
          | nil => simp
          | cons x l ih =>
            rw [List.takeWhile_cons]
            split
            · rename_i hx
              intro hm
              rcases List.mem_cons.mp hm with rfl | hm
              · simp at hx
              · exact ih hm
            · simp
        exact this t hm
      cases hd : t.dropWhile (· ≠ 58) with
      | nil =>
        unfold SInfo.fromText at h
        rw [if_neg ht, hd] at h; cases h
      | cons c u =>
        have hc : c = 58 := by
          have := List.head?_dropWhile_not (· ≠ (58 : UInt8)) t
          rw [hd] at this
          simpa using this
        subst hc
        rw [hd] at hsp
        generalize t.takeWhile (· ≠ 58) = s at hsp hnot
        subst hsp
        rw [fromText_split C raw alt s u hnot] at h
        split at h
        · rename_i e; subst e
          split at h
          · rename_i e; subst e
            injection h with h
            exact ⟨_, _, _, .digest, h.symm⟩
          · rename_i e
            obtain ⟨n, h1, rfl⟩ := Option.map_eq_some_iff.mp h
            exact ⟨_, _, _, .ident e h1, rfl⟩
        · split at h
          · rename_i e; subst e
            obtain ⟨n, h1, rfl⟩ := Option.map_eq_some_iff.mp h
            exact ⟨_, _, _, .key h1, rfl⟩
          · split at h
            · rename_i e; subst e
              obtain ⟨n, h1, rfl⟩ := Option.map_eq_some_iff.mp h
              exact ⟨_, _, _, .cert h1, rfl⟩
            · split at h
              · rename_i e; subst e
                obtain ⟨x, h1, rfl⟩ := Option.map_eq_some_iff.mp h
                exact ⟨_, _, _, .hmac h1, rfl⟩
              · cases h
  · rintro ⟨type, n, k, h, rfl⟩
    cases h with
    | default => rfl
    | digest => rw [fromText_split _ _ _ _ _ (by decide), if_pos rfl, if_pos rfl]; rfl
    | ident h1 h2 => rw [fromText_split _ _ _ _ _ (by decide), if_pos rfl, if_neg h1, h2]; rfl
    | key h1 => rw [fromText_split _ _ _ _ _ (by decide), if_neg (by decide), if_pos rfl, h1]; rfl
    | cert h1 => rw [fromText_split _ _ _ _ _ (by decide), if_neg (by decide), if_neg (by decide), if_pos rfl, h1]; rfl
    | hmac h1 => rw [fromText_split _ _ _ _ _ (by decide), if_neg (by decide), if_neg (by decide), if_neg (by decide), if_pos rfl, h1]; rfl

/-- **C92** claimed: what is printed is read as the same. -/
def C92_roundtrip_claim (alt : Bool) : Prop := ∀ (K : Type) (C : Crypto K) (raw : Bytes → Option K) (p : SInfo K), ValidName p.name →
  (∀ c ∈ p.name, ShortNumber c) → ∃ q, SInfo.fromText C raw alt (p.toText alt) = some q ∧ q.type = p.type

/-- **C92**: what is printed is read as the same signer type and name, other than for HMAC, and for the identity called
like the one that stands for a digest. -/
theorem C92_roundtrip_partial (C : Crypto K) (raw : Bytes → Option K) (alt : Bool) (p : SInfo K) (hv : ValidName p.name)
    (hs : alt = true → ∀ c ∈ p.name, ShortNumber c) (hh : p.type ≠ .hmac) (hi : p.type = .ident → p.name ≠ digestIdentity)
    (hn : p.type = .null ∨ p.type = .sha256 → p.name = []) :
    SInfo.fromText C raw alt (p.toText alt) = some (asked p.type p.name none) := by
  have hu : fromUri (toUri alt p.name) = some p.name := by
    cases alt with
    | false => exact C14_canonical p.name hv
    | true => exact C14_alternate_partial p.name hv (hs rfl)
  have hd : fromUri (toUri alt digestIdentity) = some digestIdentity := by cases alt <;> decide
  rw [C92_read]
  refine ⟨_, _, _, ?_, rfl⟩
  unfold SInfo.toText
  cases ht : p.type with
  | null => rw [hn (.inl ht)]; exact .default
  | sha256 => rw [hn (.inr ht)]; exact .digest
  | ident =>
    refine .ident ?_ hu
    intro e
    rw [e, hd] at hu
    injection hu with hu
    exact hi ht hu.symm
  | key => exact .key hu
  | cert => exact .cert hu
  | hmac => exact absurd ht hh

private def noCrypto : Crypto Unit :=
  ⟨fun _ => true, fun _ => none, fun _ => [1], fun _ _ => none, fun _ _ _ => none, fun _ _ _ => false, fun _ => none, fun _ => []⟩

private theorem generic_name {n : PName} (h : ∀ c ∈ n, c.type = 8) : ValidName n ∧ ∀ c ∈ n, ShortNumber c := by
  refine ⟨fun c hc => ⟨by rw [h c hc]; decide, by rw [h c hc]; decide, by rw [h c hc]; omega⟩, fun c hc ht => ?_⟩
  rw [h c hc] at ht
  omega

/-- A `SigningInfo` with an HMAC key is printed as that of an identity. -/
theorem C92_hmac_counterexample (alt : Bool) : ¬ C92_roundtrip_claim alt := by
  intro h
  have hg := generic_name (n := hmacIdentity ++ [⟨8, [1]⟩]) (by decide)
  obtain ⟨q, h1, h2⟩ := h Unit noCrypto (fun _ => none) (SInfo.make .hmac (hmacIdentity ++ [(⟨8, [1]⟩ : Comp)]) SigInfo.init) hg.1 hg.2
  have : (SInfo.fromText noCrypto (fun _ => none) alt (SInfo.toText alt (SInfo.make .hmac (hmacIdentity ++ [⟨8, [1]⟩]) SigInfo.init : SInfo Unit))).map SInfo.type =
    some .ident := by cases alt <;> decide
  rw [h1] at this
  injection this with this
  rw [this] at h2
  cases h2

/-- The identity called /localhost/identity/digest-sha256 is printed as signing with a digest only. -/
theorem C92_digest_counterexample (C : Crypto K) (raw : Bytes → Option K) (alt : Bool) :
    SInfo.fromText C raw alt ((SInfo.init.setSigningIdentity digestIdentity : SInfo K).toText alt) = some (asked .sha256 [] none) := by
  rw [C92_read]; exact ⟨_, _, _, .digest, rfl⟩

example : ValidName digestIdentity ∧ (∀ c ∈ digestIdentity, ShortNumber c) ∧
    (SInfo.init.setSigningIdentity [⟨8, [97]⟩] : SInfo Unit).toText true = [105, 100, 58, 47, 97] :=
  ⟨(generic_name (by decide)).1, (generic_name (by decide)).2, by decide⟩

example : Asks noCrypto (fun _ => none) true [99, 101, 114, 116, 58, 47, 118, 61, 49] .cert [⟨54, [1]⟩] none := .cert (u := [47, 118, 61, 49]) (by decide)

end Ndn.KeyChain
