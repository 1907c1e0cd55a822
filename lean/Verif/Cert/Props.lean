import Verif.Cert.Lemmas
import Verif.Packet.Props
/-
C56: validity periods.
-/
namespace Ndn.Cert
open Spec Tlv Block Block.Spec Packet

/-- C56, tests of validity: a period whose bounds are representable is valid at exactly the instants between
them, both included. Instants and `now` are in nanoseconds, bounds in seconds. -/
theorem C56_isValid (p : Validity) (now : Int) (hb : Representable p.notBefore) (ha : Representable p.notAfter) :
    p.isValid now = some (decide (p.notBefore * 1000000000 ≤ now ∧ now ≤ p.notAfter * 1000000000)) := by
  unfold Validity.isValid
  rw [if_pos ((int64_iff _).2 hb), if_pos ((int64_iff _).2 ha)]
  unfold nsPerSec
  by_cases h1 : p.notBefore * 1000000000 ≤ now
  · simp only [h1, if_true, true_and]
  · simp [h1]

example : ∃ p : Validity, Representable p.notBefore ∧ Representable p.notAfter ∧
    p.isValid 5000000000 = some true ∧ p.isValid 4999999999 = some false :=
  ⟨⟨5, 7, none⟩, by decide, by decide, by decide, by decide⟩

/-- C56, rounding inward: a period made from two instants is valid at an instant exactly when whole seconds
lie between its bounds and the instant. -/
theorem C56_rounding (notBefore notAfter now : Int) (v : Bool) (h : (Validity.make notBefore notAfter).isValid now = some v) :
    v = true ↔ ∃ s s' : Int, notBefore ≤ s * 1000000000 ∧ s * 1000000000 ≤ now ∧ now ≤ s' * 1000000000 ∧ s' * 1000000000 ≤ notAfter := by
  have hc := ceilSec_spec notBefore
  have hf := floorSec_spec notAfter
  unfold Validity.make Validity.isValid at h
  unfold nsPerSec at *
  simp only at h
  have key : v = decide (ceilSec notBefore * 1000000000 ≤ now ∧ now ≤ floorSec notAfter * 1000000000) := by
    split at h
    · by_cases h1 : ceilSec notBefore * 1000000000 ≤ now
      · rw [if_pos h1] at h
        split at h
        · simp only [Option.some.injEq] at h
          rw [← h]; simp [h1]
        · cases h
      · rw [if_neg h1] at h
        simp only [Option.some.injEq] at h
        rw [← h]; simp [h1]
    · cases h
  rw [key, decide_eq_true_eq]
  constructor
  · intro h
    exact ⟨_, _, hc.1, h.1, h.2, hf.1⟩
  · rintro ⟨s, s', h1, h2, h3, h4⟩
    have : ceilSec notBefore ≤ s := by omega
    have : s' ≤ floorSec notAfter := by omega
    omega

/-- In particular, at whole seconds the instants given decide. -/
theorem C56_whole_seconds (notBefore notAfter s : Int) (v : Bool)
    (h : (Validity.make notBefore notAfter).isValid (s * 1000000000) = some v) :
    v = true ↔ notBefore ≤ s * 1000000000 ∧ s * 1000000000 ≤ notAfter := by
  rw [C56_rounding _ _ _ _ h]
  constructor
  · rintro ⟨a, b, h1, h2, h3, h4⟩; omega
  · rintro ⟨h1, h2⟩; exact ⟨s, s, h1, by omega, by omega, h2⟩

example : (Validity.make 1500000001 3999999999).isValid 2000000000 = some true ∧
    (Validity.make 1500000001 3999999999).isValid 3000000001 = some false ∧
    (Validity.make (-1500000001) (-500000000)).isValid (-1000000000) = some true := by decide

/-- A default-constructed period is never valid. -/
theorem C56_default (now : Int) : Validity.default.isValid now = some false := by
  have h := C56_isValid Validity.default now (by decide) (by decide)
  rw [h]
  have e1 : Validity.default.notBefore = 1 := by decide
  have e2 : Validity.default.notAfter = 0 := by decide
  rw [e1, e2]
  simp only [Option.some.injEq, decide_eq_false_iff_not]
  omega

/-- Full claim: the test of validity of a period made from any two instants has a defined result. -/
def C56_defined_claim : Prop :=
  ∀ notBefore notAfter now : Int, int64 notBefore = true → int64 notAfter = true →
    ((Validity.make notBefore notAfter).isValid now).isSome

/-- The claim fails: rounding the latest instant up to a second overflows when it is compared. -/
theorem C56_defined_counterexample : ¬ C56_defined_claim := by
  intro h
  have := h (2 ^ 63 - 1) 0 0 (by decide) (by decide)
  revert this; decide

/-- What holds: it is defined when the instants are a second away from the ends of the 64-bit range. -/
theorem C56_defined_partial (notBefore notAfter now : Int) (h1 : -2 ^ 63 ≤ notBefore) (h2 : notBefore < 2 ^ 63 - 1000000000)
    (h3 : -2 ^ 63 + 1000000000 ≤ notAfter) (h4 : notAfter < 2 ^ 63) :
    ((Validity.make notBefore notAfter).isValid now).isSome := by
  have hc := ceilSec_spec notBefore
  have hf := floorSec_spec notAfter
  unfold nsPerSec at hc hf
  rw [C56_isValid]
  · rfl
  · rw [representable_iff]; show -9223372036 ≤ ceilSec notBefore ∧ _; unfold Validity.make; simp only; omega
  · rw [representable_iff]; show -9223372036 ≤ floorSec notAfter ∧ _; unfold Validity.make; simp only; omega

/-- C56, calendar: the encoding of a period whose bounds fall `n` and `n'` days after the first of January
1400, at the given times of day, holds the texts of those dates and times. -/
theorem C56_encoding (n hh mm ss n' hh' mm' ss' : Nat) (h : Clock hh mm ss) (h' : Clock hh' mm' ss') :
    (Validity.wireEncode ⟨instant n hh mm ss, instant n' hh' mm' ss', none⟩).1 =
      tlvBytes 253 (tlvBytes 254 (text (start.plus n) hh mm ss) ++ tlvBytes 255 (text (start.plus n') hh' mm' ss')) := by
  simp only [Validity.wireEncode, Validity.encoding, isoString_instant _ _ _ _ h, isoString_instant _ _ _ _ h']

/-- 365 days after the first of January 2000 (itself 219145 days after that of 1400) is the 31st of
December; 29 February 2000 exists. -/
example : ymdOf (2232400 + 219145 + 365) = (2000, 12, 31) ∧ ymdOf (2232400 + 219145 + 59) = (2000, 2, 29) ∧
    isoString 951782400 = text ⟨2000, 2, 29⟩ 0 0 0 := by decide +kernel

/-- C56, round trip: decoding an encoding gives back the bounds. -/
theorem C56_roundtrip (other : Bytes → Parsed) (p q : Validity) (hw : p.wire = none)
    (hb : Representable p.notBefore) (ha : Representable p.notAfter) :
    ∃ b, fromBuffer p.wireEncode.1 = some (b, []) ∧
      q.wireDecode other b = (.ok, ⟨p.notBefore, p.notAfter, some p.wireEncode.1⟩) := by
  have lb := isoString_length hb
  have la := isoString_length ha
  simp only [Validity.wireEncode, hw]
  unfold Validity.encoding
  have hl : (tlvBytes 254 (isoString p.notBefore) ++ tlvBytes 255 (isoString p.notAfter)).length < 2 ^ 64 := by
    rw [tlvBytes_eq, tlvBytes_eq]
    unfold tlv
    simp only [List.length_append, lb, la]
    have e1 : (writeVarNumber 254).length = 3 := by decide
    have e2 : (writeVarNumber 255).length = 3 := by decide
    have e3 : (writeVarNumber 15).length = 1 := by decide
    rw [e1, e2, e3]; decide
  refine ⟨_, fromBuffer_tlvBytes (by decide) (by decide) hl, ?_⟩
  rw [wireDecode_iff]
  refine ⟨rfl, _, _, parse_pair _ _ (by omega) (by omega), rfl, lb, rfl, la, decodeTime_iso other hb, decodeTime_iso other ha, rfl⟩

example : ∃ p : Validity, p.wire = none ∧ Representable p.notBefore ∧ Representable p.notAfter ∧
    p.wireEncode.1.length = 42 :=
  ⟨Validity.make 951782400000000000 1700000000000000000, by decide, by decide, by decide, by decide +kernel⟩

/-- C56, decoding: two elements with the texts of existing dates and times are decoded to their instants,
those before or after all representable instants to the first or last one. -/
theorem C56_decode (other : Bytes → Parsed) (p : Validity) (b : Raw) (nb na : Raw) (n hh mm ss n' hh' mm' ss' : Nat)
    (ht : b.type = 253) (hp : parseElements b.value = some [nb, na]) (hnb : nb.type = 254) (hna : na.type = 255)
    (h : Clock hh mm ss) (h' : Clock hh' mm' ss') (hy : (start.plus n).year ≤ 9999) (hy' : (start.plus n').year ≤ 9999)
    (hv : nb.value = text (start.plus n) hh mm ss) (hv' : na.value = text (start.plus n') hh' mm' ss') :
    p.wireDecode other b = (.ok, ⟨nearest (instant n hh mm ss), nearest (instant n' hh' mm' ss'), some b.wire⟩) := by
  rw [wireDecode_iff]
  refine ⟨ht, nb, na, hp, hnb, by rw [hv, text_length], hna, by rw [hv', text_length], ?_, ?_, rfl⟩
  · rw [hv, decodeTime_text other _ _ _ _ h hy]
  · rw [hv', decodeTime_text other _ _ _ _ h' hy']

/-- C56, order: of two such texts the smaller, octet by octet, is that of the earlier instant. -/
theorem C56_text_order (n hh mm ss n' hh' mm' ss' : Nat) (h : Clock hh mm ss) (h' : Clock hh' mm' ss')
    (hy : (start.plus n).year ≤ 9999) (hy' : (start.plus n').year ≤ 9999) :
    strLt (text (start.plus n) hh mm ss) (text (start.plus n') hh' mm' ss') = true ↔ instant n hh mm ss < instant n' hh' mm' ss' := by
  rw [text_lt _ _ _ _ _ _ _ _ h h' hy hy', decide_eq_true_eq]

/-- C56, accepted elements: a decoded period was an element 253 holding exactly an element 254 and an element
255 of 15 octets each, its bounds are representable, and it keeps the octets it was read from. -/
theorem C56_accepted (other : Bytes → Parsed) (p q : Validity) (b : Raw) (h : p.wireDecode other b = (.ok, q)) :
    (b.type = 253 ∧ ∃ nb na, parseElements b.value = some [nb, na] ∧ nb.type = 254 ∧ nb.value.length = 15 ∧
      na.type = 255 ∧ na.value.length = 15) ∧
    Representable q.notBefore ∧ Representable q.notAfter ∧ q.wireEncode.1 = b.wire := by
  rw [wireDecode_iff] at h
  obtain ⟨ht, nb, na, hp, h1, h2, h3, h4, h5, h6, h7⟩ := h
  exact ⟨⟨ht, nb, na, hp, h1, h2, h3, h4⟩, decodeTime_repr other h5, decodeTime_repr other h6, by
    simp [Validity.wireEncode, h7]⟩

/-- What decodes does not depend on the object decoded into. -/
theorem C56_decode_fresh (other : Bytes → Parsed) (p p' q : Validity) (b : Raw) (h : p.wireDecode other b = (.ok, q)) :
    p'.wireDecode other b = (.ok, q) := by
  rw [wireDecode_iff] at h ⊢; exact h

/-- Full claim: whatever the element, decoding has a defined outcome. -/
def C56_decode_defined_claim : Prop :=
  ∀ (p : Validity) (b : Raw), (p.wireDecode (fun _ => .badCast) b).1 ≠ .undefined

/-- A period element with the given texts. -/
def element (x y : Bytes) : Raw :=
  ⟨253, tlvBytes 253 (tlvBytes 254 x ++ tlvBytes 255 y), tlvBytes 254 x ++ tlvBytes 255 y⟩

/-- The claim fails: hours are not limited, so a text below the last representable one, `22620410T990000`,
denotes an instant after it, and the conversion to nanoseconds overflows. -/
theorem C56_decode_defined_counterexample : ¬ C56_decode_defined_claim := by
  intro h
  have := h Validity.default (element (text ⟨2000, 1, 1⟩ 0 0 0) (text ⟨2262, 4, 10⟩ 99 0 0))
  revert this; decide +kernel

/-- Full claim: a malformed element is reported as a decoding error. -/
def C56_errors_claim : Prop :=
  ∀ (p : Validity) (b : Raw), (p.wireDecode (fun _ => .badCast) b).1 ≠ .outOfRange

/-- The claim fails: for a date that does not exist, such as `20220230T000000`, a `std::out_of_range` leaves
`wireDecode`, which only translates `std::bad_cast`. -/
theorem C56_errors_counterexample : ¬ C56_errors_claim := by
  intro h
  have := h Validity.default (element (text ⟨2022, 2, 30⟩ 0 0 0) (text ⟨2262, 4, 10⟩ 0 0 0))
  revert this; decide +kernel

/-- Operations on a period. -/
inductive VOp where
  | setPeriod (notBefore notAfter : Int) | encode | decode (b : Raw)

/-- The period after an operation, and the outcome. -/
def vstep (other : Bytes → Parsed) (p : Validity) : VOp → Out × Validity
  | .setPeriod nb na => (.ok, Validity.make nb na)
  | .encode => (.ok, p.wireEncode.2)
  | .decode b => p.wireDecode other b

/-- What an operation can do: any of them, on elements as they are read from octets. -/
inductive VReach (other : Bytes → Parsed) (mustSucceed : Bool) : Validity → Prop where
  | init : VReach other mustSucceed Validity.default
  | step {p op} : VReach other mustSucceed p → (∀ b, op = .decode b → fromBuffer b.wire = some (b, [])) →
      (mustSucceed = true → (vstep other p op).1 = .ok) → VReach other mustSucceed (vstep other p op).2

/-- Full claim: after any operations, what the period encodes to decodes to its bounds. -/
def C56_history_claim : Prop :=
  ∀ (other : Bytes → Parsed) (p : Validity), VReach other false p → Representable p.notBefore → Representable p.notAfter →
    ∃ b q, fromBuffer p.wireEncode.1 = some (b, []) ∧ Validity.default.wireDecode other b = (.ok, q) ∧ q.equals p = true

/-- The claim fails: after a decode that failed, the period encodes to the octets that were refused. -/
theorem C56_history_counterexample : ¬ C56_history_claim := by
  intro h
  have hr : VReach (fun _ => .badCast) false _ :=
    .step (op := .decode ⟨253, [253, 0, 253, 0], []⟩) .init (by intro b hb; cases hb; decide) (by decide)
  obtain ⟨b, q, hb, hd, he⟩ := h _ _ hr (by decide) (by decide)
  have hb' : b = ⟨253, [253, 0, 253, 0], []⟩ := by
    have e : fromBuffer (vstep (fun _ => .badCast) Validity.default (.decode ⟨253, [253, 0, 253, 0], []⟩)).2.wireEncode.1
        = some (⟨253, [253, 0, 253, 0], []⟩, []) := by decide
    rw [e] at hb
    simpa using hb.symm
  subst hb'
  have e : (Validity.default.wireDecode (fun _ => .badCast) ⟨253, [253, 0, 253, 0], []⟩).1 = .error := by decide
  rw [hd] at e
  cases e

/-- What holds: so it is as long as no decode failed. -/
theorem C56_history_partial (other : Bytes → Parsed) (p : Validity) (hr : VReach other true p)
    (hb : Representable p.notBefore) (ha : Representable p.notAfter) :
    ∃ b q, fromBuffer p.wireEncode.1 = some (b, []) ∧ Validity.default.wireDecode other b = (.ok, q) ∧ q.equals p = true := by
  have fresh : ∀ p : Validity, Representable p.notBefore → Representable p.notAfter →
      ∃ b, fromBuffer p.encoding = some (b, []) ∧ Validity.default.wireDecode other b = (.ok, ⟨p.notBefore, p.notAfter, some p.encoding⟩) :=
    fun p hb ha => C56_roundtrip other ⟨p.notBefore, p.notAfter, none⟩ Validity.default rfl hb ha
  have inv : ∀ w, p.wire = some w → w = p.encoding ∨
      ∃ b q, fromBuffer w = some (b, []) ∧ Validity.default.wireDecode other b = (.ok, q) ∧ q.equals p = true := by
    clear hb ha
    induction hr with
    | init => intro w hw; cases hw
    | @step p op _ hf hs ih =>
      intro w hw
      cases op with
      | setPeriod nb na => cases hw
      | encode =>
        simp only [vstep, Validity.wireEncode] at hw ⊢
        cases ho : p.wire with
        | none =>
          rw [ho] at hw
          simp only [Option.some.injEq] at hw
          exact .inl hw.symm
        | some w' =>
          rw [ho] at hw
          simp only at hw ⊢
          rw [ho] at hw
          exact ih w (ho.trans hw)
      | decode b =>
        have h1 := hf b rfl
        have h2 := hs rfl
        simp only [vstep] at hw h2 ⊢
        have h3 : p.wireDecode other b = (.ok, (p.wireDecode other b).2) := by rw [← h2]
        have h4 := (C56_accepted other _ _ _ h3).2.2.2
        simp only [Validity.wireEncode, hw] at h4
        exact .inr ⟨b, _, by rw [h4]; exact h1, C56_decode_fresh other _ Validity.default _ _ h3, by simp [Validity.equals]⟩
  unfold Validity.wireEncode
  cases ho : p.wire with
  | none =>
    obtain ⟨b, h1, h2⟩ := fresh p hb ha
    exact ⟨b, _, h1, h2, by simp [Validity.equals]⟩
  | some w =>
    rcases inv w ho with h | h
    · obtain ⟨b, h1, h2⟩ := fresh p hb ha
      exact ⟨b, _, by simp only [h]; exact h1, h2, by simp [Validity.equals]⟩
    · exact h

example : ∃ p, VReach (fun _ => .badCast) true p ∧ Representable p.notBefore ∧ Representable p.notAfter ∧ p.wire.isSome :=
  ⟨_, .step (op := .encode) (.step (op := .setPeriod 5 951782400000000000) .init nofun (by decide)) nofun (by decide),
    by decide, by decide, by decide +kernel⟩

/-- C56: two validity periods are equal exactly when they begin and end together. -/
theorem C56_equals (p q : Validity) : p.equals q = true ↔ p.notBefore = q.notBefore ∧ p.notAfter = q.notAfter := by
  simp [Validity.equals]

end Ndn.Cert
