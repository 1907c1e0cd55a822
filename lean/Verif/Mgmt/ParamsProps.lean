import Verif.Mgmt.ParamsLemmas
/-
C62: control parameters keep their fields across encoding and decoding; flag bits.
-/
namespace Ndn.Mgmt
open Tlv Tlv.Spec Block Block.Spec Name Packet Packet.Spec

/-! ### C62: encoding and decoding -/

/-- Decoding succeeds exactly for a ControlParameters element whose value is a sequence of TLV elements, each known one
of which is readable; each field is then that of the last element of its type, and absent without one. Elements of
unknown types are ignored. -/
theorem C62_decode (b : Raw) (p : Params) :
    Params.decode b = some p ↔ b.type = 104 ∧ ∃ es, ReadsAs b.value es ∧ Means es p := by
  unfold Params.decode
  by_cases ht : b.type = 104
  · rw [if_neg (by simp [ht])]
    cases hp : parseElements b.value with
    | none =>
      simp only
      constructor
      · intro h; cases h
      · rintro ⟨_, es, h, _⟩
        rw [parseElements_iff.2 h] at hp; cases hp
    | some es =>
      simp only
      rw [takeAll_iff, scans_means]
      constructor
      · intro h; exact ⟨ht, es, parseElements_iff.1 hp, h⟩
      · rintro ⟨_, es', h, hm⟩
        rw [parseElements_iff.2 h] at hp
        cases hp
        exact hm
  · rw [if_pos ht]
    constructor
    · intro h; cases h
    · rintro ⟨h, _⟩; exact absurd h ht

/-- Encoding and decoding give back the same present fields with the same values. -/
theorem C62_roundtrip (p : Params) (h : Ok p) : Params.decode p.encode = some p := by
  rw [C62_decode]
  refine ⟨rfl, p.elems, ?_, (scans_means _ _).1 (scans_elems h)⟩
  rw [show p.encode.value = p.value from rfl, elems_wire]
  exact readsAs_of (elems_wf h.size)

/-- The encoding is one TLV element, as it is read from the wire. -/
theorem C62_encode_element (p : Params) (h : Ok p) : RawWF p.encode ∧ p.encode.type = 104 :=
  ⟨binaryBlock_wf (by decide) (by decide) h.size, rfl⟩

theorem run_inv (ops : List POp) : ∀ o o' : PObj, PObj.run ops o = some o' →
    (∀ w, o.wire = some w → w = o.p.encode ∨ Params.decode w = some o.p) →
    ∀ w, o'.wire = some w → w = o'.p.encode ∨ Params.decode w = some o'.p := by
  induction ops with
  | nil => intro o o' h; simp only [PObj.run, Option.some.injEq] at h; subst h; exact id
  | cons op ops ih =>
    intro o o' h hi
    simp only [PObj.run] at h
    cases hs : o.step op with
    | none => rw [hs] at h; cases h
    | some o1 =>
      rw [hs] at h
      refine ih o1 o' h ?_
      intro w hw
      cases op with
      | encode =>
        simp only [PObj.step, PObj.wireEncode, Option.some.injEq] at hs
        subst hs
        cases hw2 : o.wire with
        | none =>
          rw [hw2] at hw
          simp only [Option.some.injEq] at hw ⊢
          exact Or.inl hw.symm
        | some v =>
          rw [hw2] at hw
          exact hi w hw
      | decode b =>
        simp only [PObj.step, Option.map_eq_some_iff] at hs
        obtain ⟨q, hq, rfl⟩ := hs
        simp only [Option.some.injEq] at hw
        subst hw
        exact Or.inr hq
      | _ =>
        simp only [PObj.step, Option.some.injEq] at hs
        subst hs
        cases hw

/-- After any history of setters, unsetters, encodings and decodings, what `wireEncode` returns decodes to the current
fields: no stale encoding is ever returned. -/
theorem C62_history (ops : List POp) (o : PObj) (h : PObj.run ops {} = some o) (ok : Ok o.p) :
    Params.decode o.wireEncode.2 = some o.p := by
  have hi := run_inv ops {} o h (by intro w hw; cases hw)
  unfold PObj.wireEncode
  cases hw : o.wire with
  | none => exact C62_roundtrip _ ok
  | some w =>
    rcases hi w hw with rfl | h2
    · exact C62_roundtrip _ ok
    · exact h2

/-- After any sequence of setters, unsetters and encodings each field holds what the last call about it gave it; calls
about other fields do not matter. -/
theorem C62_setters (ops : List POp) (o o' : PObj) (f : Field) (h : PObj.run ops o = some o')
    (hd : ∀ op ∈ ops, op.isDecode = false) : o'.p.get f = lastWrite f (o.p.get f) ops := by
  induction ops generalizing o with
  | nil => simp only [PObj.run, Option.some.injEq] at h; subst h; rfl
  | cons op ops ih =>
    simp only [PObj.run] at h
    cases hs : o.step op with
    | none => rw [hs] at h; cases h
    | some o1 =>
      rw [hs] at h
      rw [ih o1 h (fun x hx => hd x (List.mem_cons_of_mem _ hx)), lastWrite]
      congr 1
      cases op with
      | decode b => have := hd _ (List.mem_cons_self ..); cases this
      | encode =>
        simp only [PObj.step, PObj.wireEncode, Option.some.injEq] at hs
        subst hs
        cases o.wire <;> rfl
      | unset g =>
        simp only [PObj.step, Option.some.injEq] at hs
        subst hs
        cases f <;> cases g <;> rfl
      | _ =>
        simp only [PObj.step, Option.some.injEq] at hs
        subst hs
        cases f <;> rfl

/-- What `present` says is what a getter can return. -/
theorem C62_present (p : Params) (f : Field) : p.present f = (p.get f).isSome := by
  cases f <;> simp [Params.present, Params.get]

/-! ### C62: flag bits -/

/-- Setting a flag bit, as promised: the bit reads back, the others are as they were, and so is everything else; with
`wantMask` the bit is set in the mask. -/
def SetOk (p : Params) (b : Nat) (v wantMask : Bool) (q : Params) : Prop :=
  q.flags.isSome ∧ (∀ i, bitOf q.flags i = if i = b then v else bitOf p.flags i) ∧ SameOthers p q ∧
  (if wantMask then q.mask.isSome ∧ ∀ i, bitOf q.mask i = (decide (i = b) || bitOf p.mask i) else q.mask = p.mask) ∧
  q.getFlagBit b = .ok v

/-- Unsetting one: the bit is cleared in the mask, and the flags are as they were as long as a bit is left in the
mask. -/
def UnsetOk (p : Params) (b : Nat) (q : Params) : Prop :=
  (∀ i, bitOf q.mask i = (decide (i ≠ b) && bitOf p.mask i)) ∧ SameOthers p q ∧
  ((q.mask = none ∧ q.flags = none) ∨ (q.mask.isSome ∧ q.mask ≠ some 0 ∧ q.flags = p.flags)) ∧
  q.hasFlagBit b = .ok false

/-- The claim: for every bit below 64. -/
def C62_flag_bits_claim : Prop :=
  ∀ (p : Params) (b : Nat) (v wantMask : Bool), Ok p → b < 64 →
    (∃ q, p.setFlagBit b v wantMask = .ok q ∧ SetOk p b v wantMask q) ∧
    (∃ q, p.unsetFlagBit b = .ok q ∧ UnsetOk p b q) ∧
    p.getFlagBit b = .ok (bitOf p.flags b) ∧ p.hasFlagBit b = .ok (bitOf p.mask b)

theorem shl1_low {b : Nat} (h : b < 31) : shl1 b = some (2 ^ b) := by unfold shl1; rw [if_pos h]

theorem two_pow_lt {b : Nat} (h : b < 31) : (2 : Nat) ^ b < 2 ^ 31 := Nat.pow_lt_pow_right (by decide) h

theorem toU64_two_pow {b : Nat} (h : b < 31) : toU64 (2 ^ b) = 2 ^ b := by
  have h1 := two_pow_lt h
  have h2 : ((2 : Int) ^ b) = ((2 ^ b : Nat) : Int) := by simp
  unfold toU64
  rw [h2]
  generalize (2 : Nat) ^ b = n at h1
  omega

theorem toU64_compl {b : Nat} (h : b < 31) : toU64 (complement (2 ^ b)) = 2 ^ 64 - (2 ^ b + 1) := by
  have h1 := two_pow_lt h
  have h2 : ((2 : Int) ^ b) = ((2 ^ b : Nat) : Int) := by simp
  unfold toU64 complement
  rw [h2]
  generalize (2 : Nat) ^ b = n at h1
  omega

theorem testBit_compl {b : Nat} (h : b < 31) (i : Nat) :
    (2 ^ 64 - (2 ^ b + 1)).testBit i = (decide (i < 64) && !decide (b = i)) := by
  rw [Nat.testBit_two_pow_sub_succ (by have := two_pow_lt h; omega), Nat.testBit_two_pow]

theorem testBit_high {n i : Nat} (h : n < 2 ^ 64) (hi : 64 ≤ i) : n.testBit i = false :=
  Nat.testBit_lt_two_pow (Nat.lt_of_lt_of_le h (Nat.pow_le_pow_right (by decide) hi))

theorem and_pow_ne (m b : Nat) : decide (m &&& 2 ^ b ≠ 0) = m.testBit b := by
  have h : (m &&& 2 ^ b).testBit b = m.testBit b := by rw [Nat.testBit_and, Nat.testBit_two_pow]; simp
  cases hm : m.testBit b with
  | true =>
    rw [hm] at h
    simp only [ne_eq, decide_eq_true_eq]
    intro h0
    rw [h0] at h
    simp at h
  | false =>
    simp only [ne_eq, decide_not, Bool.not_eq_false', decide_eq_true_eq]
    apply Nat.eq_of_testBit_eq
    intro i
    rw [Nat.testBit_and, Nat.testBit_two_pow]
    by_cases hi : b = i
    · subst hi; simp [hm]
    · simp [hi]

theorem get_low (p : Params) {b : Nat} (h : b < 31) : p.getFlagBit b = .ok (bitOf p.flags b) := by
  unfold Params.getFlagBit bitOf
  rw [if_neg (by omega)]
  cases p.flags with
  | none => simp
  | some m => simp only [shl1_low h, toU64_two_pow h, and_pow_ne]; rfl

theorem has_low (p : Params) {b : Nat} (h : b < 31) : p.hasFlagBit b = .ok (bitOf p.mask b) := by
  unfold Params.hasFlagBit bitOf
  rw [if_neg (by omega)]
  cases p.mask with
  | none => simp
  | some m => simp only [shl1_low h, toU64_two_pow h, and_pow_ne]; rfl

theorem or_bits (o : Option Nat) (b i : Nat) : bitOf (some (o.getD 0 ||| 2 ^ b)) i = (decide (i = b) || bitOf o i) := by
  simp only [bitOf, Option.getD_some, Nat.testBit_or, Nat.testBit_two_pow]
  rw [Bool.or_comm]
  congr 1
  simp [eq_comm]

theorem and_bits {o : Option Nat} (ho : ∀ x, o = some x → x < 2 ^ 64) {b : Nat} (h : b < 31) (i : Nat) :
    (o.getD 0 &&& (2 ^ 64 - (2 ^ b + 1))).testBit i = (decide (i ≠ b) && bitOf o i) := by
  rw [Nat.testBit_and, testBit_compl h]
  have hlt : o.getD 0 < 2 ^ 64 := by
    cases o with
    | none => simp
    | some x => exact ho x rfl
  unfold bitOf
  by_cases hi : i < 64
  · rw [Bool.and_comm]
    simp [hi, eq_comm]
  · rw [testBit_high hlt (by omega)]; simp

/-- It holds for every bit below 31: for these, setting, unsetting and testing a bit do exactly what they say, for all
64 bits of the numbers involved. Missing: bits 31 to 63, see the counterexamples. -/
theorem C62_flag_bits_partial (p : Params) (b : Nat) (v wantMask : Bool) (ok : Ok p) (h : b < 31) :
    (∃ q, p.setFlagBit b v wantMask = .ok q ∧ SetOk p b v wantMask q) ∧
    (∃ q, p.unsetFlagBit b = .ok q ∧ UnsetOk p b q) ∧
    p.getFlagBit b = .ok (bitOf p.flags b) ∧ p.hasFlagBit b = .ok (bitOf p.mask b) := by
  have hf : ∀ i, bitOf (some (if v = true then p.flags.getD 0 ||| 2 ^ b else p.flags.getD 0 &&& (2 ^ 64 - (2 ^ b + 1)))) i =
      if i = b then v else bitOf p.flags i := by
    intro i
    cases v with
    | true =>
      rw [if_pos rfl, or_bits]
      by_cases hi : i = b <;> simp [hi]
    | false =>
      rw [if_neg (by decide)]
      show (p.flags.getD 0 &&& (2 ^ 64 - (2 ^ b + 1))).testBit i = _
      rw [and_bits ok.flags h]
      by_cases hi : i = b <;> simp [hi]
  refine ⟨?_, ?_, get_low p h, has_low p h⟩
  · unfold Params.setFlagBit
    rw [if_neg (by omega)]
    simp only [shl1_low h, toU64_two_pow h, toU64_compl h]
    cases wantMask with
    | true =>
      refine ⟨_, rfl, rfl, hf, rfl, ⟨rfl, ?_⟩, ?_⟩
      · intro i; exact or_bits p.mask b i
      · rw [get_low _ h, hf]; simp
    | false =>
      refine ⟨_, rfl, rfl, hf, rfl, rfl, ?_⟩
      rw [get_low _ h, hf]; simp
  · unfold Params.unsetFlagBit
    rw [if_neg (by omega)]
    simp only [shl1_low h, toU64_compl h]
    split
    · rename_i h0
      refine ⟨_, rfl, ?_, rfl, Or.inl ⟨rfl, rfl⟩, ?_⟩
      · intro i
        have h1 := and_bits ok.mask h i
        rw [h0] at h1
        rw [← h1]; rfl
      · rw [has_low _ h]; simp [bitOf]
    · rename_i h0
      refine ⟨_, rfl, ?_, rfl, Or.inr ⟨rfl, ?_, rfl⟩, ?_⟩
      · intro i; exact and_bits ok.mask h i
      · intro hc; exact h0 (Option.some.inj hc)
      · rw [has_low _ h]
        show Bit.ok ((p.mask.getD 0 &&& (2 ^ 64 - (2 ^ b + 1))).testBit b) = _
        rw [and_bits ok.mask h]; simp

/-- A bit number of 64 or more is refused and nothing is changed. -/
theorem C62_flag_bits_range (p : Params) (b : Nat) (v wantMask : Bool) (h : 64 ≤ b) :
    p.setFlagBit b v wantMask = .outOfRange ∧ p.unsetFlagBit b = .outOfRange ∧ p.getFlagBit b = .outOfRange ∧
    p.hasFlagBit b = .outOfRange := by
  unfold Params.setFlagBit Params.unsetFlagBit Params.getFlagBit Params.hasFlagBit
  simp [h]

theorem ok_empty : Ok {} := by
  constructor <;> (first | (intro x hx; cases hx) | decide)

/-- Bit 31 is not a bit: `1 << 31` is negative as an `int` and is sign-extended, so setting it sets bits 32 to 63 too. -/
theorem C62_bit31_counterexample : ∃ q, Params.setFlagBit {} 31 true false = .ok q ∧ bitOf q.flags 40 = true ∧
    bitOf ({} : Params).flags 40 = false :=
  ⟨_, rfl, by decide, by decide⟩

/-- Reading bit 31 tells whether any of bits 31 to 63 is set. -/
theorem C62_bit31_get_counterexample : Params.getFlagBit { flags := some (2 ^ 40) } 31 = .ok true ∧
    bitOf (some (2 ^ 40)) 31 = false := by decide

/-- From bit 32 on the shift is undefined behaviour. -/
theorem C62_bit32_counterexample (p : Params) (b : Nat) (v wantMask : Bool) (h : 32 ≤ b) (h2 : b < 64) :
    p.setFlagBit b v wantMask = .ub ∧ p.unsetFlagBit b = .ub ∧ (p.flags.isSome → p.getFlagBit b = .ub) ∧
    (p.mask.isSome → p.hasFlagBit b = .ub) := by
  have hs : shl1 b = none := by unfold shl1; rw [if_neg (by omega), if_neg (by omega)]
  unfold Params.setFlagBit Params.unsetFlagBit Params.getFlagBit Params.hasFlagBit
  simp only [hs, if_neg (show ¬ b ≥ 64 by omega)]
  refine ⟨trivial, trivial, ?_, ?_⟩
  · intro h; cases hf : p.flags with
    | none => rw [hf] at h; cases h
    | some _ => rfl
  · intro h; cases hf : p.mask with
    | none => rw [hf] at h; cases h
    | some _ => rfl

/-- Bit 31 is sign-extended to all higher bits. -/
theorem C62_flag_bits_counterexample : ¬ C62_flag_bits_claim := by
  intro h
  obtain ⟨⟨q, hq, _⟩, _⟩ := h {} 32 true false ok_empty (by decide)
  rw [(C62_bit32_counterexample {} 32 true false (by decide) (by decide)).1] at hq
  cases hq

/-! Examples. -/

/-- Parameters with six fields. -/
def exParams : Params :=
  { name := some [⟨8, [97]⟩, ⟨54, [1, 2]⟩], faceId := some 300, uri := some [117, 100, 112], flags := some (2 ^ 40 + 5),
    strategy := some [⟨8, [98]⟩], expirationPeriod := some (-3), facePersistency := some 2 }

theorem exParams_ok : Ok exParams := by
  constructor <;> (first | (intro x hx; cases hx; decide) | (intro x hx; cases hx; unfold NameWF; decide) | (intro x hx; cases hx) | decide)

example : Params.decode exParams.encode = some exParams := C62_roundtrip _ exParams_ok

/-- An element of an unknown type, a repeated field: the last value counts. -/
example : Params.decode (binaryBlock 104 (nniTlv 106 3 ++ tlvBytes 1000 [1] ++ nniTlv 106 7)) = some { cost := some 7 } := by
  decide

/-- A face persistency that does not fit is refused. -/
example : Params.decode (binaryBlock 104 (nniTlv 133 256)) = none := by decide

example : ∃ o, PObj.run [.setCost 3, .encode, .setFlags 4, .unset .cost] {} = some o ∧ Ok o.p ∧
    Params.decode o.wireEncode.2 = some { flags := some 4 } := by
  refine ⟨_, rfl, ?_, by decide⟩
  constructor <;> (first | (intro x hx; cases hx; decide) | (intro x hx; cases hx) | decide)

example : ∃ q, exParams.setFlagBit 1 true true = .ok q ∧ q.flags = some (2 ^ 40 + 7) ∧ q.mask = some 2 :=
  ⟨_, rfl, by decide, by decide⟩

end Ndn.Mgmt
