import Verif.Hex.Lemmas
/-
C20: percent escaping. C40: hex and transform chains.
-/
namespace Ndn.Hex
open Spec

/-- C20: `escape` produces exactly the percent-escaped form of its input. -/
theorem C20_escape_form (s : Bytes) : EscForm (escape s) s := escape_form s

/-- C20: `unescape` recovers `s` from any percent-escaped form of it, in particular from
`escape s`. -/
theorem C20_roundtrip (s : Bytes) : unescape (escape s) = s ∧ ∀ e, EscForm e s → unescape e = s :=
  ⟨unescape_form (escape_form s), fun _ h => unescape_form h⟩

/-- C20: `escape` is injective. -/
theorem C20_injective (s t : Bytes) (h : escape s = escape t) : s = t := by
  rw [← (C20_roundtrip s).1, h, (C20_roundtrip t).1]

/-- C20: `unescape` leaves untouched everything that is not a `%` with two hexadecimal digits
following: other characters, and `%xy` triples with a character that is not a hexadecimal digit,
and a `%` too close to the end. -/
theorem C20_malformed (a b c : UInt8) (s : Bytes) :
    (a ≠ 37 → unescape (a :: s) = a :: unescape s) ∧
    ((¬ (∃ d, HexDigit b d) ∨ ¬ (∃ d, HexDigit c d)) →
      unescape (37 :: b :: c :: s) = 37 :: b :: c :: unescape s) ∧
    (s.length < 3 → unescape s = s) := by
  refine ⟨unescape_cons_ne a s, ?_, ?_⟩
  · intro h
    rw [unescape, if_pos rfl]
    cases h1 : fromHexChar b with
    | none => simp
    | some x =>
      cases h2 : fromHexChar c with
      | none => simp
      | some y =>
        rcases h with h | h
        · exact absurd ⟨x, (fromHexChar_iff _ _).mp h1⟩ h
        · exact absurd ⟨y, (fromHexChar_iff _ _).mp h2⟩ h
  · intro h
    match s, h with
    | [], _ => rfl
    | [a], _ => rfl
    | [a, b], _ => rfl

/-- C20: a well-formed escape is replaced by the octet it denotes. -/
theorem C20_wellformed (b c : UInt8) (h l : Nat) (s : Bytes) (hb : HexDigit b h) (hc : HexDigit c l) :
    unescape (37 :: b :: c :: s) = UInt8.ofNat (h * 16 + l) :: unescape s := by
  rw [unescape, if_pos rfl, (fromHexChar_iff _ _).mpr hb, (fromHexChar_iff _ _).mpr hc]

example : escape [97, 47, 37, 255] = [97, 37, 50, 70, 37, 50, 53, 37, 70, 70] ∧
    unescape [37, 50, 102, 37, 90, 48] = [47, 37, 90, 48] := by decide

/-- C40: decoding, whatever the division into chunks, succeeds exactly when the characters together
are a hexadecimal notation, and yields the octets denoted. -/
theorem C40_decode_iff (chunks : List Bytes) (bs : Bytes) :
    hexDecodeChunks none chunks = some bs ↔ HexForm chunks.flatten bs := by
  rw [hexDecodeChunks_spec]
  rw [show oddList none ++ chunks.flatten = chunks.flatten from rfl]
  split
  · rename_i h
    simp only [reduceCtorEq, false_iff]
    intro hf; have := hf.even; omega
  · exact hexPairs_iff _ _ (by omega)

/-- C40: the result does not depend on the chunking. -/
theorem C40_chunk_independent (cs ds : List Bytes) (h : cs.flatten = ds.flatten) :
    hexDecodeChunks none cs = hexDecodeChunks none ds := by
  rw [hexDecodeChunks_spec, hexDecodeChunks_spec, h]

/-- C40: failure happens exactly on an odd number of characters or a non-hexadecimal character. -/
theorem C40_fail_iff (chunks : List Bytes) :
    hexDecodeChunks none chunks = none ↔
      chunks.flatten.length % 2 = 1 ∨ ∃ c ∈ chunks.flatten, ¬ ∃ d, HexDigit c d := by
  rw [hexDecodeChunks_spec]
  rw [show oddList none ++ chunks.flatten = chunks.flatten from rfl]
  generalize chunks.flatten = s
  split
  · rename_i h; simp [h]
  · rename_i hev
    have hev' : s.length % 2 = 0 := by omega
    simp only [hev', Nat.zero_ne_one, false_or]
    clear hev
    induction s using hexPairs.induct with
    | case1 a b s hn =>
      simp only [hexPairs, hn, true_iff]
      cases h1 : c2h a with
      | none =>
        refine ⟨a, by simp, ?_⟩
        rintro ⟨d, hd⟩; rw [(c2h_iff _ _).mpr hd] at h1; simp at h1
      | some x =>
        refine ⟨b, by simp, ?_⟩
        rintro ⟨d, hd⟩
        have h2 := (c2h_iff _ _).mpr hd
        simp [hexPair, h1, h2] at hn
    | case2 a b s x hx ih =>
      have hev2 : s.length % 2 = 0 := by simp at hev'; omega
      obtain ⟨h, l, h1, h2, _⟩ := (hexPair_iff _ _ _).mp hx
      simp only [hexPairs, hx, Option.map_eq_none_iff, ih hev2, List.mem_cons]
      constructor
      · rintro ⟨c, hc, hn⟩; exact ⟨c, Or.inr (Or.inr hc), hn⟩
      · rintro ⟨c, rfl | rfl | hc, hn⟩
        · exact absurd ⟨h, h1⟩ hn
        · exact absurd ⟨l, h2⟩ hn
        · exact ⟨c, hc, hn⟩
    | case3 s hne =>
      match s, hne with
      | [], _ => simp [hexPairs]
      | [a], _ => simp at hev'
      | a :: b :: s, hne => exact absurd rfl (hne a b s)

/-- C40: round trip in both letter cases, through any chunking of the encoded text. -/
theorem C40_roundtrip (u : Bool) (bs : Bytes) (chunks : List Bytes)
    (h : chunks.flatten = hexEncode u bs) : hexDecodeChunks none chunks = some bs := by
  rw [C40_decode_iff, h]; exact hexEncode_form u bs

theorem hexEncode_hom (u : Bool) : Hom (hexEncodeConv u) (hexEncode u) :=
  ⟨fun _ _ => rfl, fun a b => by simp [hexEncode], rfl, fun _ => rfl, rfl⟩

theorem stripSpace_hom (ws : UInt8 → Bool) : Hom (stripSpaceConv ws) (stripSpace ws) :=
  ⟨fun _ _ => rfl, fun a b => by simp [stripSpace], rfl, fun _ => rfl, rfl⟩

/-- C40: encoding in a chain is independent of the division of the input into buffers and of how
much the next module accepts at each write. -/
theorem C40_encode_chain (u : Bool) (fuel : Nat) (accept : List Nat) (chunks : List Bytes) (out : Bytes)
    (h : pump (hexEncodeConv u) fuel ⟨(), [], [], accept⟩ chunks = some out) :
    out = hexEncode u chunks.flatten := by
  simpa using pump_hom (hexEncode_hom u) fuel _ chunks out h

/-- C40: the same for white-space removal. -/
theorem C40_strip_chain (ws : UInt8 → Bool) (fuel : Nat) (accept : List Nat) (chunks : List Bytes)
    (out : Bytes) (h : pump (stripSpaceConv ws) fuel ⟨(), [], [], accept⟩ chunks = some out) :
    out = chunks.flatten.filter (fun c => !ws c) := by
  exact pump_hom (stripSpace_hom ws) fuel _ chunks out h

/-- C40, full statement for a decoder in a chain: whatever the next module accepts at each write,
what it has received at the end is the decoding of the input. -/
def C40_decode_chain_claim : Prop :=
  ∀ fuel accept chunks out, pump hexDecodeConv fuel ⟨none, [], [], accept⟩ chunks = some out →
    hexDecodeChunks none chunks = some out

/-- C40: false of the code: `HexDecode::finalize` replaces the default one and does not flush, so
output that the next module did not take at once is lost at `end()`. -/
theorem C40_decode_chain_counterexample : ¬ C40_decode_chain_claim := by
  intro h
  have := h 2 [0] [[52, 49]] [] (by decide)
  revert this; decide

/-- C40, the part that holds for a decoder in a chain: with a next module that accepts everything it
is given (such as a stream sink). Missing: partial writes, for which the claim is false. -/
theorem C40_decode_chain_partial (chunks : List Bytes) (out : Bytes) (fuel : Nat) (hf : 1 ≤ fuel) :
    pump hexDecodeConv fuel ⟨none, [], [], []⟩ chunks = some out ↔
      hexDecodeChunks none chunks = some out := by
  have key : ∀ (chunks : List Bytes) (odd : Option UInt8) (pre out : Bytes),
      pump hexDecodeConv fuel ⟨odd, [], pre, []⟩ chunks = some out ↔
        ∃ o, hexDecodeChunks odd chunks = some o ∧ out = pre ++ o := by
    intro chunks
    induction chunks with
    | nil =>
      intro odd pre out
      cases odd with
      | none => simp [pump, hexDecodeConv, hexDecodeChunks]; exact eq_comm
      | some a => simp [pump, hexDecodeConv, hexDecodeChunks]
    | cons c cs ih =>
      intro odd pre out
      simp only [pump, hexDecodeChunks]
      cases c with
      | nil =>
        have : pumpOne hexDecodeConv fuel ⟨odd, [], pre, []⟩ [] = some ⟨odd, [], pre, []⟩ := by
          cases fuel <;> rfl
        rw [this]
        simp only [Option.bind_some, hexConvert, if_true]
        rw [ih]
        cases hexDecodeChunks odd cs <;> simp
      | cons b bs =>
        cases fuel with
        | zero => omega
        | succ f =>
          simp only [pumpOne, doWrite, flush, if_true, ne_eq, not_true_eq_false, if_false]
          cases hc : hexConvert odd (b :: bs) with
          | none => simp [hexDecodeConv, hc]
          | some p =>
            obtain ⟨o', out'⟩ := p
            simp only [hexDecodeConv, hc]
            rw [List.drop_length]
            have hone : ∀ t, pumpOne hexDecodeConv f t [] = some t := by intro t; cases f <;> rfl
            have hfl : ∀ (x : Bytes), (if x = [] then (⟨o', x, pre, []⟩ : TState (Option UInt8))
                else ⟨o', [], pre ++ x, []⟩) = ⟨o', [], pre ++ x, []⟩ := by
              intro x; split
              · rename_i h; subst h; simp
              · rfl
            simp only [hfl]
            rw [show (pumpOne ⟨none, hexConvert, fun o => o.isNone, false⟩ f ⟨o', [], pre ++ out', []⟩ []) =
              some ⟨o', [], pre ++ out', []⟩ from hone _]
            simp only [Option.bind_some]
            rw [show (⟨none, hexConvert, fun o => o.isNone, false⟩ : Conv (Option UInt8)) = hexDecodeConv from rfl]
            rw [ih]
            constructor
            · rintro ⟨o, h1, h2⟩
              exact ⟨out' ++ o, by simp [h1], by simp [h2]⟩
            · rintro ⟨o, h1, h2⟩
              cases hr : hexDecodeChunks o' cs with
              | none => rw [hr] at h1; simp at h1
              | some r => rw [hr] at h1; simp at h1; subst h1; exact ⟨r, rfl, by simp [h2]⟩
  rw [key]
  simp

example : hexDecodeChunks none [[52], [], [49, 102], [70]] = some [65, 255] ∧
    pump (hexEncodeConv false) 10 ⟨(), [], [], [1, 0, 2]⟩ [[65], [255, 1]] =
      some [52, 49, 102, 102, 48, 49] := by decide

/-- C40: the white space removed by default is the space, form feed, newline, carriage return, tab and vertical tab. -/
theorem C40_white_space (data : Bytes) : stripSpace defaultWs data =
    data.filter (fun c => !([32, 12, 10, 13, 9, 11] : Bytes).contains c) := by
  unfold stripSpace
  congr 1
  funext c
  simp [defaultWs, Bool.or_assoc]

example : stripSpace defaultWs [65, 32, 66, 11, 10, 67] = [65, 66, 67] := by decide

end Ndn.Hex
