import Verif.Tlv.Lemmas
/-
C01, C02, C03: TLV numbers.
-/
namespace Ndn.Tlv
open Spec

/-- C01 (writer): the bytes written for `n` are a VAR-NUMBER form of `n`, of the announced size,
and no form of `n` is shorter. -/
theorem C01_write (n : Nat) (h : n < 2 ^ 64) :
    VarForm (writeVarNumber n) n ∧ (writeVarNumber n).length = sizeOfVarNumber n ∧
      ∀ bs, VarForm bs n → sizeOfVarNumber n ≤ bs.length := by
  refine ⟨writeVarNumber_form h, writeVarNumber_length n, ?_⟩
  intro bs hf
  unfold sizeOfVarNumber
  cases hf with
  | one a h => rw [if_pos (by omega)]; simp
  | three a b => have := a.toNat_lt; have := b.toNat_lt; simp; (repeat' split) <;> omega
  | five a b c d =>
    have := beNat_lt [a, b, c, d]; rw [beNat_four] at this
    simp at this ⊢; repeat' split
    all_goals omega
  | nine => simp; (repeat' split) <;> omega

/-- C01 (round trip): reading what was written, followed by anything, returns the number and leaves
exactly what followed. -/
theorem C01_roundtrip (n : Nat) (h : n < 2 ^ 64) (rest : Bytes) :
    readVarNumber (writeVarNumber n ++ rest) = some (n, rest) :=
  readVarNumber_writeVarNumber h rest

example : (65536 : Nat) < 2 ^ 64 ∧
    readVarNumber (writeVarNumber 65536 ++ [9]) = some (65536, [9]) := by decide

/-- C02 (reader, VAR-NUMBER): for every input, reading succeeds with number `n` and remainder
`rest` exactly when the input is a VAR-NUMBER form of `n` followed by `rest`. -/
theorem C02_readVarNumber_iff (bs rest : Bytes) (n : Nat) :
    readVarNumber bs = some (n, rest) ↔ ∃ pre, bs = pre ++ rest ∧ VarForm pre n :=
  readVarNumber_iff

/-- C02 (reader, TLV-TYPE): the same with 0 and values above `2^32-1` rejected. -/
theorem C02_readType_iff (bs rest : Bytes) (n : Nat) :
    readType bs = some (n, rest) ↔
      ∃ pre, bs = pre ++ rest ∧ VarForm pre n ∧ 1 ≤ n ∧ n ≤ 2 ^ 32 - 1 := by
  rw [readType_iff]
  constructor <;> rintro ⟨p, h1, h2, h3, h4⟩ <;> exact ⟨p, h1, h2, h3, by omega⟩

/-- C02 (failure): reading fails exactly when the input is empty or the octets announced by the
first one are not all present. -/
theorem C02_readVarNumber_fail_iff (bs : Bytes) :
    readVarNumber bs = none ↔
      bs = [] ∨ (bs.head? = some 253 ∧ bs.length < 3) ∨ (bs.head? = some 254 ∧ bs.length < 5) ∨
        (bs.head? = some 255 ∧ bs.length < 9) := by
  cases bs with
  | nil => simp [readVarNumber]
  | cons b bs =>
    simp only [readVarNumber, List.head?_cons, Option.some.injEq, List.length_cons, reduceCtorEq,
      false_or]
    split
    · rename_i h
      constructor
      · simp
      · rintro (⟨rfl, _⟩ | ⟨rfl, _⟩ | ⟨rfl, _⟩) <;> exact absurd h (by decide)
    · rcases and_three_cases b.toNat (by omega) b.toNat_lt with ⟨hb, hs⟩ | ⟨hb, hs⟩ | ⟨hb, hs⟩ <;>
        rw [hs]
      · have : b = 253 := UInt8.toNat_inj.mp hb
        subst this; simp [readNumber]; omega
      · have : b = 254 := UInt8.toNat_inj.mp hb
        subst this; simp [readNumber]; omega
      · have : b = 255 := UInt8.toNat_inj.mp hb
        subst this; simp [readNumber]; omega

/-- C02 (stability): appending bytes does not change a successful read; the number is 64-bit. -/
theorem C02_stable (bs rest more : Bytes) (n : Nat) (h : readVarNumber bs = some (n, rest)) :
    readVarNumber (bs ++ more) = some (n, rest ++ more) ∧ n < 2 ^ 64 := by
  obtain ⟨pre, rfl, hf⟩ := readVarNumber_iff.mp h
  exact ⟨readVarNumber_iff.mpr ⟨pre, by simp, hf⟩, hf.lt⟩

/-- C02: the byte-at-a-time path used for streams computes the same function. -/
theorem C02_slow_path (bs : Bytes) :
    readVarNumberSlow bs = readVarNumber bs ∧ readTypeSlow bs = readType bs :=
  ⟨readVarNumberSlow_eq bs, readTypeSlow_eq bs⟩

example : readVarNumber [253, 1, 2, 7] = some (258, [7]) := by decide
example : readType [253, 0, 0, 7] = none ∧ readVarNumber [254, 0, 0, 1] = none := by decide

/-- C03 (writer). -/
theorem C03_write (n : Nat) (h : n < 2 ^ 64) :
    NniForm (writeNonNegativeInteger n) n ∧
      (writeNonNegativeInteger n).length = sizeOfNonNegativeInteger n ∧
      ∀ bs, NniForm bs n → sizeOfNonNegativeInteger n ≤ bs.length := by
  refine ⟨writeNonNegativeInteger_form h, writeNonNegativeInteger_length n, ?_⟩
  intro bs hf
  unfold sizeOfNonNegativeInteger
  cases hf with
  | one a => have := a.toNat_lt; rw [if_pos (by omega)]; simp
  | two a b => have := a.toNat_lt; have := b.toNat_lt; simp; (repeat' split) <;> omega
  | four a b c d =>
    have := beNat_lt [a, b, c, d]; rw [beNat_four] at this
    simp at this ⊢; repeat' split
    all_goals omega
  | eight => simp; (repeat' split) <;> omega

/-- C03 (reader): succeeds exactly on a NonNegativeInteger form of the given length. -/
theorem C03_read_iff (len n : Nat) (bs rest : Bytes) :
    readNonNegativeInteger len bs = some (n, rest) ↔
      ∃ pre, bs = pre ++ rest ∧ pre.length = len ∧ NniForm pre n :=
  readNonNegativeInteger_iff

/-- C03 (failure): exactly for a bad length or missing bytes. -/
theorem C03_read_fail_iff (len : Nat) (bs : Bytes) :
    readNonNegativeInteger len bs = none ↔
      (len ≠ 1 ∧ len ≠ 2 ∧ len ≠ 4 ∧ len ≠ 8) ∨ bs.length < len := by
  unfold readNonNegativeInteger readNumber
  split
  · simp; omega
  · split <;> simp <;> omega

/-- C03 (round trip), also through a TLV-VALUE. -/
theorem C03_roundtrip (n : Nat) (h : n < 2 ^ 64) (rest : Bytes) :
    readNonNegativeInteger (sizeOfNonNegativeInteger n) (writeNonNegativeInteger n ++ rest) =
        some (n, rest) ∧
      readNniValue (writeNonNegativeInteger n) = some n :=
  ⟨readNonNegativeInteger_iff.mpr
    ⟨_, rfl, writeNonNegativeInteger_length n, writeNonNegativeInteger_form h⟩,
   readNniValue_write h⟩

/-- C03 (narrowing read): the value is returned exactly when it fits. -/
theorem C03_readAs_iff (maxR n : Nat) (v : Bytes) :
    readNniValueAs maxR v = some n ↔ NniForm v n ∧ n ≤ maxR := by
  unfold readNniValueAs
  cases h : readNniValue v with
  | none =>
    simp only [reduceCtorEq, false_iff, not_and]
    intro hf
    rw [readNniValue_iff.mpr hf] at h; simp at h
  | some m =>
    have hm := readNniValue_iff.mp h
    have huniq : ∀ k, NniForm v k → k = m := by
      intro k hk
      have := readNniValue_iff.mpr hk
      rw [h] at this; simpa using this.symm
    simp only
    split
    · simp only [reduceCtorEq, false_iff, not_and]
      intro hf; rw [huniq n hf]; omega
    · simp only [Option.some.injEq]
      constructor
      · rintro rfl; exact ⟨hm, by omega⟩
      · rintro ⟨hf, _⟩; exact (huniq n hf).symm

example : readNniValueAs 255 [1, 0] = none ∧ readNniValueAs 65535 [1, 0] = some 256 ∧
    readNonNegativeInteger 3 [1, 2, 3] = none := by decide

end Ndn.Tlv
