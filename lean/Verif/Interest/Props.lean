import Verif.Interest.DecodeLemmas
import Verif.Packet.Props
/-
Properties C25 (Interest part), C28-C31, C73, C74.
-/
namespace Ndn.Interest
open Tlv Block Block.Spec Name Name.Spec Packet Packet.Spec Spec

/-! ### C28: round trip -/

/-- Decoding accepts exactly the encodings of the format (with a matching digest component if that is
checked) and gives every field the value in the encoding, or its default if it is absent. -/
theorem C28_decode_exact (H : Bytes → Bytes) (auto : Bool) (b : Raw) (f : IFields) :
    interestDecode H auto b = some f ↔
      b.type = 5 ∧ ∃ es, ReadsAs b.value es ∧ InterestGrammar es f ∧
        (auto = true → DigestOk H f.name f.params) := interestDecode_iff H auto b f

/-- Decoding does not depend on the previous contents of the object. -/
theorem C28_decode_fresh (H : Bytes → Bytes) (auto : Bool) (o o' : IObj) (b : Raw) :
    o.wireDecode H auto b = (true, o') ↔ ∃ f, interestDecode H auto b = some f ∧ o' = ⟨f, some b⟩ := by
  rw [IObj.wireDecode_iff]
  constructor
  · rintro ⟨h1, es, f, h2, h3, h4, h5⟩
    exact ⟨f, (interestDecode_iff _ _ _ _).mpr ⟨h1, es, h2, h3, h4⟩, h5⟩
  · rintro ⟨f, h1, h2⟩
    obtain ⟨a1, es, a2, a3, a4⟩ := (interestDecode_iff _ _ _ _).mp h1
    exact ⟨a1, es, f, a2, a3, a4, h2⟩

theorem encode_block {H : Bytes → Bytes} {f : IFields} (h : InterestWF H f) (auto : Bool) :
    f.encodable = true ∧
    fromRange f.encode true = some (binaryBlock 5 ((f.elems.map Raw.wire).flatten)) ∧
    fromBuffer f.encode = some (binaryBlock 5 ((f.elems.map Raw.wire).flatten), []) ∧
    interestDecode H auto (binaryBlock 5 ((f.elems.map Raw.wire).flatten)) = some f := by
  have hs := h.size
  rw [IFields.encode_eq] at hs ⊢
  have h2 := tlvBytes_ge 5 ((f.elems.map Raw.wire).flatten)
  refine ⟨?_, fromRange_tlvBytes (by decide) (by decide) (by omega),
    fromBuffer_tlvBytes (by decide) (by decide) (by omega), ?_⟩
  · unfold IFields.encodable
    rcases h.digest with ⟨d1, d2⟩ | ⟨d1, d2⟩
    · rw [if_pos (findDigest_none.mpr d2)]; simp [d1]
    · rw [if_neg (by rw [findDigest_none, d2]; simp)]; simpa using d1
  · exact (interestDecode_iff _ _ _ _).mpr ⟨rfl, f.elems, readsAs_of (IFields.elems_wf h),
      IFields.grammar_elems h, fun _ => h.digest⟩

/-- For every Interest, decoding its encoding gives equal fields. -/
theorem C28_roundtrip (H : Bytes → Bytes) (auto : Bool) (f : IFields) (h : InterestWF H f) :
    f.encodable = true ∧
      ∃ b, fromBuffer f.encode = some (b, []) ∧ b.wire = f.encode ∧ interestDecode H auto b = some f := by
  obtain ⟨h1, h2, h3, h4⟩ := encode_block h auto
  refine ⟨h1, _, h3, ?_, h4⟩
  rw [IFields.encode_eq]; rfl

/-- `wireEncode()` of an object without cached encoding: the encoding of the fields, which it keeps,
except that a missing nonce is drawn. -/
theorem C28_wireEncode (H : Bytes → Bytes) (auto : Bool) (o : IObj) (rnd : Bytes) (hw : o.wire = none)
    (h : InterestWF H { o.f with nonce := some (o.f.nonce.getD rnd) }) :
    ∃ b, b.wire = { o.f with nonce := some (o.f.nonce.getD rnd) }.encode ∧
      o.wireEncode H auto rnd = (⟨{ o.f with nonce := some (o.f.nonce.getD rnd) }, some b⟩, some b) := by
  obtain ⟨h1, h2, h3, h4⟩ := encode_block h auto
  generalize hb0 : binaryBlock 5 _ = b0 at h2 h3 h4
  refine ⟨b0, ?_, ?_⟩
  rotate_left
  · unfold IObj.wireEncode
    rw [hw]
    have e1 : o.f.encodable = true := h1
    have e2 : (o.getNonce rnd).1 = ⟨{ o.f with nonce := some (o.f.nonce.getD rnd) }, none⟩ := by
      unfold IObj.getNonce
      cases hn : o.f.nonce with
      | none => simp
      | some n =>
        simp only [Option.getD_some]
        rcases o with ⟨⟨a1, a2, a3, a4, a5, a6, a7, a8⟩, w⟩
        simp only at hn hw
        rw [hn, hw]
    simp only [e1, Bool.not_true, Bool.false_eq_true, if_false, e2, h2]
    obtain ⟨a1, es, a2, a3, a4⟩ := (interestDecode_iff _ _ _ _).mp h4
    have := (IObj.wireDecode_iff H auto ⟨{ o.f with nonce := some (o.f.nonce.getD rnd) }, none⟩ _ _).mpr
      ⟨a1, es, _, a2, a3, a4, rfl⟩
    rw [this]
    rfl
  · rw [IFields.encode_eq, ← hb0]; rfl

/-- Equal encodings come from equal fields. -/
theorem C28_injective (H : Bytes → Bytes) (f g : IFields) (hf : InterestWF H f) (hg : InterestWF H g)
    (h : f.encode = g.encode) : f = g := by
  obtain ⟨_, b, h1, _, h2⟩ := C28_roundtrip H false f hf
  obtain ⟨_, c, h3, _, h4⟩ := C28_roundtrip H false g hg
  rw [h, h3] at h1
  simp only [Option.some.injEq, Prod.mk.injEq, and_true] at h1
  subst h1
  rw [h2] at h4
  simpa using h4

/-- A hash for examples. -/
def zeroHash : Bytes → Bytes := fun _ => List.replicate 32 0

/-- A signed Interest. -/
def sampleInterest : IFields :=
  ⟨[⟨8, [65]⟩, ⟨2, List.replicate 32 0⟩], true, true, [[⟨8, [66]⟩]], some [1, 2, 3, 4], 1000, some 7,
    [binaryBlock 36 [9], binaryBlock 44 [27, 1, 0], binaryBlock 46 [5, 5]]⟩

theorem sampleInterest_wf : InterestWF zeroHash sampleInterest where
  name := by
    intro c hc
    simp only [sampleInterest, List.mem_cons, List.not_mem_nil, or_false] at hc
    rcases hc with rfl | rfl <;> decide
  nonempty := by decide
  digest := Or.inr ⟨by decide, by decide⟩
  hint := by
    intro n hn
    simp only [sampleInterest, List.mem_cons, List.not_mem_nil, or_false] at hn
    subst hn
    intro c hc
    simp only [List.mem_cons, List.not_mem_nil, or_false] at hc
    subst hc; decide
  nonce := ⟨_, rfl, rfl⟩
  lifetime := by decide
  params := by
    intro b hb
    simp only [sampleInterest, List.mem_cons, List.not_mem_nil, or_false] at hb
    rcases hb with rfl | rfl | rfl
    · exact ⟨binaryBlock_wf (by decide) (by decide) (by decide), by decide, by decide⟩
    · exact ⟨binaryBlock_wf (by decide) (by decide) (by decide), by decide, by decide⟩
    · exact ⟨binaryBlock_wf (by decide) (by decide) (by decide), by decide, by decide⟩
  params0 := by
    intro b hb
    simp only [sampleInterest, List.head?_cons, Option.mem_def, Option.some.injEq] at hb
    subst hb; rfl
  params1 := by
    intro b hb
    simp only [sampleInterest, List.tail_cons, List.mem_cons, List.not_mem_nil, or_false] at hb
    rcases hb with rfl | rfl <;> decide
  size := by decide

example : InterestWF zeroHash sampleInterest := sampleInterest_wf
example : ∃ b, interestDecode zeroHash true b = some sampleInterest :=
  let ⟨_, b, _, _, h⟩ := C28_roundtrip zeroHash true _ sampleInterest_wf
  ⟨b, h⟩

/-! ### C25: unknown, critical and misplaced elements -/

/-- Not one of the elements the decoder knows. -/
def Unknown (e : Raw) : Prop := ¬ Known e ∧ e.type ≠ 36

theorem iLoop_skip {e : Raw} (hu : Unknown e) (hi : Ignorable e) (a c : List Raw) (ha : ∀ x ∈ a, x.type ≠ 36)
    (f : IFields) (last : Nat) (hp : f.params = []) :
    iLoop f last (a ++ e :: c) = iLoop f last (a ++ c) := by
  induction a generalizing f last with
  | nil =>
    obtain ⟨hk, h36⟩ := hu
    unfold Known at hk
    simp only [List.nil_append]
    conv => lhs; unfold iLoop
    rw [if_neg (show ¬ e.type = 33 by omega), if_neg (show ¬ e.type = 18 by omega),
      if_neg (show ¬ e.type = 30 by omega), if_neg (show ¬ e.type = 10 by omega),
      if_neg (show ¬ e.type = 12 by omega), if_neg (show ¬ e.type = 34 by omega), if_neg h36,
      if_neg (show ¬ isCriticalType e.type = true by rw [isCritical_iff]; exact fun h => h hi),
      if_neg (by simp [hp])]
  | cons x a ih =>
    have h36 := ha x (by simp)
    have ih := ih (fun y hy => ha y (by simp [hy]))
    simp only [List.cons_append]
    unfold iLoop
    simp only [if_neg h36, hp, ne_eq, not_true_eq_false, if_false]
    repeat' split
    all_goals first | rfl | exact ih _ _ rfl | exact ih _ _ (by exact hp)

/-- An ignorable unknown element anywhere between the name and the first ApplicationParameters makes
no difference: the packet is accepted with it if and only if it is accepted without, with the same
fields. -/
theorem C25_interest_insert (H : Bytes → Bytes) (auto : Bool) (b b' : Raw) (n e : Raw) (a c : List Raw)
    (hb : b.type = 5) (hb' : b'.type = 5)
    (h : ReadsAs b.value (n :: (a ++ c))) (h' : ReadsAs b'.value (n :: (a ++ e :: c)))
    (ha : ∀ x ∈ a, x.type ≠ 36) (hu : Unknown e) (hi : Ignorable e) :
    interestDecode H auto b' = interestDecode H auto b := by
  unfold interestDecode IObj.wireDecode
  rw [if_neg (by simp [hb']), if_neg (by simp [hb]), parseElements_iff.mpr h, parseElements_iff.mpr h']
  simp only
  by_cases hn : n.type ≠ 7
  · rw [if_pos hn, if_pos hn]
  · rw [if_neg hn, if_neg hn]
    cases nameOf n with
    | none => rfl
    | some nm =>
      simp only
      rw [iLoop_skip hu hi a c ha _ _ rfl]
      by_cases h1 : nm = []
      · rw [if_pos h1, if_pos h1]
      · rw [if_neg h1, if_neg h1]
        by_cases h2 : findDigest nm = -2
        · rw [if_pos h2, if_pos h2]
        · rw [if_neg h2, if_neg h2]
          generalize iLoop (IFields.cleared nm) 1 (a ++ c) = q
          obtain ⟨q1, q2⟩ := q
          cases q1 <;> cases auto <;> simp
          cases q2.digestValid H <;> rfl

/-- An unknown critical element anywhere after the name makes the packet unacceptable. -/
theorem C25_interest_critical (H : Bytes → Bytes) (auto : Bool) (b : Raw) (n e : Raw) (rest : List Raw)
    (h : ReadsAs b.value (n :: rest)) (he : e ∈ rest) (hu : Unknown e) (hi : ¬ Ignorable e) :
    interestDecode H auto b = none := by
  cases hd : interestDecode H auto b with
  | none => rfl
  | some f =>
    exfalso
    obtain ⟨_, es, h1, h2, _⟩ := (interestDecode_iff _ _ _ _).mp hd
    have := readsAs_unique h1 h
    subst this
    obtain ⟨n', pre, tail, g0, _, _, _, g4, g5, g6, _, _, _, _, _, _, _, _, _, g16, _⟩ := h2
    simp only [List.cons.injEq] at g0
    rw [g0.2] at he
    rcases List.mem_append.mp he with he | he
    · rcases g6 e he with h | h
      · exact hu.1 h
      · exact hi h
    · exact hi (g16 e he)

/-- Position of a recognised element in the format; 0 for others. -/
def rank (e : Raw) : Nat :=
  if e.type = 33 then 2 else if e.type = 18 then 3 else if e.type = 30 then 4
  else if e.type = 10 then 5 else if e.type = 12 then 6 else if e.type = 34 then 7
  else if e.type = 36 then 8 else 0

/-- CanBePrefix, MustBeFresh, ForwardingHint, Nonce, InterestLifetime: the recognised elements that
may not be out of order. -/
def Strict (e : Raw) : Prop :=
  e.type = 33 ∨ e.type = 18 ∨ e.type = 30 ∨ e.type = 10 ∨ e.type = 12

theorem iLoop_step {f f' : IFields} {last : Nat} {e : Raw} {es : List Raw}
    (h : iLoop f last (e :: es) = (true, f')) :
    ∃ f2 last2, last ≤ last2 ∧ rank e ≤ last2 ∧ iLoop f2 last2 es = (true, f') ∧ (Strict e → last < rank e) := by
  unfold iLoop at h
  by_cases h33 : e.type = 33
  · rw [if_pos h33] at h
    by_cases hl : last ≥ 2
    · rw [if_pos hl] at h; simp at h
    · rw [if_neg hl] at h
      split at h
      · simp at h
      · exact ⟨_, 2, by omega, by simp [rank, h33], h, fun _ => by simp [rank, h33]; omega⟩
  rw [if_neg h33] at h
  by_cases h18 : e.type = 18
  · rw [if_pos h18] at h
    by_cases hl : last ≥ 3
    · rw [if_pos hl] at h; simp at h
    · rw [if_neg hl] at h
      split at h
      · simp at h
      · exact ⟨_, 3, by omega, by simp [rank, h18], h, fun _ => by simp [rank, h18]; omega⟩
  rw [if_neg h18] at h
  by_cases h30 : e.type = 30
  · rw [if_pos h30] at h
    by_cases hl : last ≥ 4
    · rw [if_pos hl] at h; simp at h
    · rw [if_neg hl] at h
      simp only at h
      split at h
      · exact ⟨_, 4, by omega, by simp [rank, h30], h, fun _ => by simp [rank, h30]; omega⟩
      · simp at h
  rw [if_neg h30] at h
  by_cases h10 : e.type = 10
  · rw [if_pos h10] at h
    by_cases hl : last ≥ 5
    · rw [if_pos hl] at h; simp at h
    · rw [if_neg hl] at h
      split at h
      · simp at h
      · exact ⟨_, 5, by omega, by simp [rank, h10], h, fun _ => by simp [rank, h10]; omega⟩
  rw [if_neg h10] at h
  by_cases h12 : e.type = 12
  · rw [if_pos h12] at h
    by_cases hl : last ≥ 6
    · rw [if_pos hl] at h; simp at h
    · rw [if_neg hl] at h
      split at h
      · simp at h
      · exact ⟨_, 6, by omega, by simp [rank, h12], h, fun _ => by simp [rank, h12]; omega⟩
  rw [if_neg h12] at h
  have hns : ¬ Strict e := by unfold Strict; omega
  by_cases h34 : e.type = 34
  · rw [if_pos h34] at h
    by_cases hl : last ≥ 7
    · rw [if_pos hl] at h
      exact ⟨_, last, by omega, by simp [rank, h34]; omega, h, fun hs => absurd hs hns⟩
    · rw [if_neg hl] at h
      split at h
      · exact ⟨_, 7, by omega, by simp [rank, h34], h, fun hs => absurd hs hns⟩
      · simp at h
  rw [if_neg h34] at h
  by_cases h36 : e.type = 36
  · rw [if_pos h36] at h
    by_cases hl : last ≥ 8
    · rw [if_pos hl] at h
      exact ⟨_, last, by omega, by simp [rank, h36]; omega, h, fun hs => absurd hs hns⟩
    · rw [if_neg hl] at h
      exact ⟨_, 8, by omega, by simp [rank, h36], h, fun hs => absurd hs hns⟩
  rw [if_neg h36] at h
  have hr : rank e = 0 := by simp [rank, h33, h18, h30, h10, h12, h34, h36]
  split at h
  · simp at h
  · split at h
    · exact ⟨_, last, by omega, by omega, h, fun hs => absurd hs hns⟩
    · exact ⟨_, last, by omega, by omega, h, fun hs => absurd hs hns⟩

theorem iLoop_late {y : Raw} (hy : Strict y) (m c : List Raw) (f f' : IFields) (last : Nat)
    (h : iLoop f last (m ++ y :: c) = (true, f')) : last < rank y := by
  induction m generalizing f last with
  | nil =>
    obtain ⟨_, _, _, _, _, h5⟩ := iLoop_step h
    exact h5 hy
  | cons x m ih =>
    obtain ⟨f2, l2, h1, h2, h3, _⟩ := iLoop_step h
    have := ih f2 l2 h3
    omega

theorem iLoop_order {x y : Raw} (hy : Strict y) (a m c : List Raw) (f f' : IFields) (last : Nat)
    (h : iLoop f last (a ++ x :: (m ++ y :: c)) = (true, f')) : rank x < rank y := by
  induction a generalizing f last with
  | nil =>
    obtain ⟨f2, l2, h1, h2, h3, _⟩ := iLoop_step h
    have := iLoop_late hy m c f2 f' l2 h3
    omega
  | cons z a ih =>
    obtain ⟨f2, l2, _, _, h3, _⟩ := iLoop_step h
    exact ih f2 l2 h3

/-- An element that must be in order (`Strict`) may not be repeated and may not follow an element
that comes later in the format. (A repeated or late HopLimit or ApplicationParameters is tolerated.) -/
theorem C25_interest_order (H : Bytes → Bytes) (auto : Bool) (b n x y : Raw) (a m c : List Raw)
    (h : ReadsAs b.value (n :: (a ++ x :: (m ++ y :: c)))) (hy : Strict y) (hr : rank y ≤ rank x) :
    interestDecode H auto b = none := by
  cases hd : interestDecode H auto b with
  | none => rfl
  | some f =>
    exfalso
    obtain ⟨_, es, h1, h2, _⟩ := (interestDecode_iff _ _ _ _).mp hd
    have := readsAs_unique h1 h
    subst this
    obtain ⟨n', rest, g1, g2, g3, g4⟩ := grammar_name h2
    simp only [List.cons.injEq] at g1
    obtain ⟨rfl, _⟩ := g1
    have := (grammar_iff g2 g3 g4).mpr h2
    have := iLoop_order hy a m c _ _ _ this
    omega

/-- Example: elements as in the statements exist (an unknown ignorable one, an unknown critical one,
a repeated Nonce). -/
example : Unknown (binaryBlock 130 []) ∧ Ignorable (binaryBlock 130 []) ∧
    Unknown (binaryBlock 131 []) ∧ ¬ Ignorable (binaryBlock 131 []) ∧
    Strict (binaryBlock 10 []) ∧ rank (binaryBlock 10 []) ≤ rank (binaryBlock 10 []) := by
  refine ⟨⟨?_, ?_⟩, ⟨?_, ?_⟩, ⟨?_, ?_⟩, ?_, ?_, ?_⟩ <;> simp [Known, binaryBlock, Ignorable, Strict]

/-! ### Histories -/

/-- A history in which every call returns; `none` if a call throws. -/
def runOk (H : Bytes → Bytes) (auto : Bool) : IObj → List IOp → Option IObj
  | o, [] => some o
  | o, op :: ops => if (o.step H auto op).1 then runOk H auto (o.step H auto op).2 ops else none

theorem runOk_inv {H : Bytes → Bytes} {auto : Bool} (P : IObj → Prop) (Q : IOp → Prop)
    (hstep : ∀ o op, P o → Q op → (o.step H auto op).1 = true → P (o.step H auto op).2) :
    ∀ (ops : List IOp) (o o' : IObj), P o → (∀ op ∈ ops, Q op) → runOk H auto o ops = some o' → P o' := by
  intro ops
  induction ops with
  | nil => intro o o' h0 _ h; simp only [runOk, Option.some.injEq] at h; subst h; exact h0
  | cons op ops ih =>
    intro o o' h0 hq h
    unfold runOk at h
    by_cases hs : (o.step H auto op).1 = true
    · rw [if_pos hs] at h
      exact ih _ _ (hstep o op h0 (hq op (by simp)) hs) (fun x hx => hq x (by simp [hx])) h
    · rw [if_neg hs] at h; simp at h

/-- Outcome of `wireEncode()`: either it returned the cached or the new encoding, or nothing useful. -/
theorem wireEncode_cases (H : Bytes → Bytes) (auto : Bool) (o : IObj) (rnd : Bytes) (b : Raw)
    (h : (o.wireEncode H auto rnd).2 = some b) :
    (o.wire = some b ∧ (o.wireEncode H auto rnd).1 = o) ∨
    (RawWF b ∧ ∃ f, interestDecode H auto b = some f ∧ (o.wireEncode H auto rnd).1 = ⟨f, some b⟩) := by
  unfold IObj.wireEncode at h ⊢
  cases hw : o.wire with
  | some w => left; rw [hw] at h; simpa using h
  | none =>
    right
    rw [hw] at h
    simp only at h ⊢
    by_cases he : (!o.f.encodable) = true
    · rw [if_pos he] at h; simp at h
    · rw [if_neg he] at h ⊢
      cases hf : fromRange (o.getNonce rnd).1.f.encode true with
      | none => rw [hf] at h; simp at h
      | some c =>
        rw [hf] at h
        simp only at h ⊢
        by_cases hd : ((o.getNonce rnd).1.wireDecode H auto c).1 = true
        · rw [if_pos hd] at h
          simp only [Option.some.injEq] at h; subst h
          obtain ⟨f, g1, g2⟩ := (C28_decode_fresh H auto _ ((o.getNonce rnd).1.wireDecode H auto c).2 c).mp (by rw [← hd])
          obtain ⟨f1, f2⟩ := fromRange_iff.mp hf
          exact ⟨by rw [RawWF, f1]; exact f2, f, g1, g2⟩
        · rw [if_neg hd] at h; simp at h

/-! ### C29: the parameters digest -/

/-- Full claim: after any calls that succeed, name and parameters agree. -/
def C29_claim : Prop :=
  ∀ (H : Bytes → Bytes), (∀ x, (H x).length = 32) → ∀ (ops : List IOp) (o : IObj),
    runOk H true IObj.init ops = some o → DigestOk H o.f.name o.f.params

/-- The claim fails: `setName` accepts a name with a digest component although there are no
parameters (`wireEncode` then refuses). -/
theorem C29_setName_counterexample : ¬ C29_claim := by
  intro h
  have := h zeroHash (by intro x; simp [zeroHash]) [.setName [⟨2, List.replicate 32 0⟩]] _ rfl
  have h2 := (digestValid_iff (H := zeroHash)
    (f := IFields.cleared [⟨2, List.replicate 32 0⟩]) (by decide)).mpr this
  revert h2; decide

/-- What always holds: at most one digest component, and with parameters exactly one, which is the
digest of the octets of the parameters. -/
def WeakDigest (H : Bytes → Bytes) (f : IFields) : Prop :=
  (digests f.name).length ≤ 1 ∧
    (f.params ≠ [] → digests f.name = [⟨2, H ((f.params.map Raw.wire).flatten)⟩])

theorem weak_of_ok {H : Bytes → Bytes} {f : IFields} (h : DigestOk H f.name f.params) : WeakDigest H f := by
  refine ⟨digestOk_le h, ?_⟩
  intro hp
  rcases h with ⟨h, _⟩ | ⟨_, h⟩
  · exact absurd h hp
  · exact h

theorem insertAt_ne (i : Nat) (b : Raw) (ps : List Raw) : insertAt i b ps ≠ [] := by
  unfold insertAt; simp

theorem setParam0_ne (b : Raw) (ps : List Raw) : setParam0 b ps ≠ [] := by
  cases ps <;> simp [setParam0]

theorem digests_eraseIdx {n : List Comp} (h : (digests n).length ≤ 1) (hi : findDigest n ≥ 0) :
    digests (n.eraseIdx (findDigest n).toNat) = [] := by
  rcases findDigest_spec n with ⟨h1, h2⟩ | ⟨a, c, b, h1, h2, h3, h4, h5, h6⟩ | ⟨h1, h2⟩
  · omega
  · rw [h6, h1]
    simp only [Int.toNat_natCast]
    rw [List.eraseIdx_append_of_length_le (by simp)]
    simp [digests_append, h3, h4]
  · omega

/-- The invariant, in the two strengths, step by step. `strong` excludes `setName` with a digest
component. -/
theorem digest_step {H : Bytes → Bytes} (hH : ∀ x, (H x).length = 32) (o : IObj) (op : IOp)
    (hs : (o.step H true op).1 = true) :
    (WeakDigest H o.f → WeakDigest H (o.step H true op).2.f) ∧
    (DigestOk H o.f.name o.f.params → (∀ n, op = .setName n → digests n = []) →
      DigestOk H (o.step H true op).2.f.name (o.step H true op).2.f.params) := by
  have set : ∀ (f : IFields) (ps : List Raw), ps ≠ [] → (digests f.name).length ≤ 1 →
      DigestOk H (addOrReplace H f.name ps) ps := by
    intro f ps hp hd
    exact Or.inr ⟨hp, digests_addOrReplace hH hd⟩
  have both : ∀ {f : IFields}, (WeakDigest H o.f → DigestOk H f.name f.params) →
      (WeakDigest H o.f → WeakDigest H f) ∧
      (DigestOk H o.f.name o.f.params → (∀ n, op = .setName n → digests n = []) → DigestOk H f.name f.params) :=
    fun h => ⟨fun hw => weak_of_ok (h hw), fun hd _ => h (weak_of_ok hd)⟩
  have same : ∀ {f : IFields}, f.name = o.f.name → f.params = o.f.params →
      (WeakDigest H o.f → WeakDigest H f) ∧
      (DigestOk H o.f.name o.f.params → (∀ n, op = .setName n → digests n = []) → DigestOk H f.name f.params) := by
    intro f h1 h2
    unfold WeakDigest
    rw [h1, h2]
    exact ⟨id, fun h _ => h⟩
  cases op with
  | setName n =>
    simp only [IObj.step] at hs ⊢
    by_cases h2 : findDigest n = -2
    · rw [if_pos h2] at hs; simp at hs
    · rw [if_neg h2]
      rw [findDigest_many] at h2
      by_cases hne : n ≠ o.f.name
      · rw [if_pos hne]
        simp only
        by_cases hp : o.f.params ≠ []
        · simp only [if_pos hp]
          have := set { o.f with name := n } o.f.params hp (by simp only; omega)
          exact ⟨fun _ => weak_of_ok this, fun _ _ => this⟩
        · simp only [if_neg hp]
          simp only [ne_eq, Decidable.not_not] at hp
          refine ⟨fun _ => ⟨by simp only; omega, fun h => absurd hp h⟩, ?_⟩
          intro _ hn
          exact Or.inl ⟨hp, hn n rfl⟩
      · rw [if_neg hne]; exact same rfl rfl
  | setCanBePrefix x => simp only [IObj.step]; split <;> exact same rfl rfl
  | setMustBeFresh x => simp only [IObj.step]; split <;> exact same rfl rfl
  | setForwardingHint l => exact same rfl rfl
  | getNonce rnd =>
    simp only [IObj.step, IObj.getNonce]
    split <;> exact same rfl rfl
  | setNonce n => simp only [IObj.step]; split <;> exact same rfl rfl
  | refreshNonce rnds =>
    simp only [IObj.step]
    split
    · exact same rfl rfl
    · split <;> exact same rfl rfl
  | setLifetime ms =>
    simp only [IObj.step]
    split
    · exact same rfl rfl
    · split <;> exact same rfl rfl
  | setHopLimit x => simp only [IObj.step]; split <;> exact same rfl rfl
  | setParamsBlock b =>
    refine both (fun hw => ?_)
    exact set o.f _ (setParam0_ne _ _) hw.1
  | setParams v =>
    refine both (fun hw => ?_)
    exact set o.f _ (setParam0_ne _ _) hw.1
  | unsetParams =>
    refine both (fun hw => ?_)
    simp only [IObj.step]
    refine Or.inl ⟨rfl, ?_⟩
    by_cases hi : findDigest o.f.name ≥ 0
    · rw [if_pos hi]; exact digests_eraseIdx hw.1 hi
    · rw [if_neg hi]
      rcases findDigest_spec o.f.name with ⟨h1, h2⟩ | ⟨a, c, b, h1, h2, h3, h4, h5, h6⟩ | ⟨h1, h2⟩
      · exact h1
      · omega
      · have := hw.1; omega
  | setSigInfo s =>
    simp only [IObj.step, IObj.setSigInfo] at hs ⊢
    by_cases hp : o.f.params = []
    · rw [if_pos hp] at hs ⊢
      cases he : s.wireEncode 44 with
      | none => rw [he] at hs; simp at hs
      | some r =>
        obtain ⟨s', enc⟩ := r
        rw [he] at hs
        simp only at hs ⊢
        have : ([binaryBlock 36 []] : List Raw)[firstParam 44 [binaryBlock 36 []]]? = none := by decide
        rw [this]
        simp only
        refine both (fun hw => ?_)
        exact set o.f _ (insertAt_ne _ _ _) hw.1
    · rw [if_neg hp] at hs ⊢
      cases he : s.wireEncode 44 with
      | none => rw [he] at hs; simp at hs
      | some r =>
        obtain ⟨s', enc⟩ := r
        rw [he] at hs
        simp only at hs ⊢
        cases hg : o.f.params[firstParam 44 o.f.params]? with
        | none =>
          simp only
          refine both (fun hw => ?_)
          exact set o.f _ (insertAt_ne _ _ _) hw.1
        | some old =>
          simp only
          by_cases hq : old.equals enc = true
          · rw [if_pos hq]; exact same rfl rfl
          · rw [if_neg hq]
            refine both (fun hw => ?_)
            exact set o.f _ (by simpa using hp) hw.1
  | setSigValue v =>
    simp only [IObj.step, IObj.setSigValue] at hs ⊢
    by_cases hi : firstParam 44 o.f.params ≥ o.f.params.length
    · rw [if_pos hi] at hs; simp at hs
    · rw [if_neg hi] at hs ⊢
      have hp : o.f.params ≠ [] := by
        intro h; rw [h] at hi; simp at hi
      cases hg : o.f.params[firstParam 46 o.f.params]? with
      | none =>
        simp only
        refine both (fun hw => ?_)
        exact set o.f _ (insertAt_ne _ _ _) hw.1
      | some old =>
        simp only
        by_cases hq : old.equals (binaryBlock 46 v) = true
        · rw [if_pos hq]; exact same rfl rfl
        · rw [if_neg hq]
          refine both (fun hw => ?_)
          exact set o.f _ (by simpa using hp) hw.1
  | wireEncode rnd =>
    simp only [IObj.step] at hs ⊢
    obtain ⟨b, hb⟩ := Option.isSome_iff_exists.mp hs
    rcases wireEncode_cases H true o rnd b hb with ⟨_, h2⟩ | ⟨_, f, h1, h2⟩
    · rw [h2]; exact same rfl rfl
    · rw [h2]
      obtain ⟨_, _, _, _, h3⟩ := (interestDecode_iff _ _ _ _).mp h1
      exact both (fun _ => h3 rfl)
  | wireDecode b =>
    simp only [IObj.step] at hs ⊢
    obtain ⟨f, h1, h2⟩ := (C28_decode_fresh H true o (o.wireDecode H true b).2 b).mp (Prod.ext hs rfl)
    rw [h2]
    obtain ⟨_, _, _, _, h3⟩ := (interestDecode_iff _ _ _ _).mp h1
    exact both (fun _ => h3 rfl)

/-- After any calls that succeed: at most one digest component; if there are parameters, exactly one,
and it is the digest of the octets of the current parameters. Missing from the full property: a digest
component given by `setName` without parameters (`C29_setName_counterexample`). -/
theorem C29_digest_partial (H : Bytes → Bytes) (hH : ∀ x, (H x).length = 32) (ops : List IOp) (o : IObj)
    (h : runOk H true IObj.init ops = some o) :
    (digests o.f.name).length ≤ 1 ∧
      (o.f.params ≠ [] → digests o.f.name = [⟨2, H ((o.f.params.map Raw.wire).flatten)⟩]) := by
  refine runOk_inv (fun o => WeakDigest H o.f) (fun _ => True) ?_ ops _ o ?_ (by simp) h
  · intro o op ho _ hs
    exact (digest_step hH o op hs).1 ho
  · exact ⟨by decide, by intro h; simp [IObj.init, IFields.cleared] at h⟩

/-- The full property for histories in which the names given to `setName` have no digest component:
name and parameters agree and `isParametersDigestValid()` returns true. -/
theorem C29_valid_partial (H : Bytes → Bytes) (hH : ∀ x, (H x).length = 32) (ops : List IOp) (o : IObj)
    (hn : ∀ n, IOp.setName n ∈ ops → digests n = [])
    (h : runOk H true IObj.init ops = some o) :
    DigestOk H o.f.name o.f.params ∧ o.f.digestValid H = true := by
  have : DigestOk H o.f.name o.f.params := by
    refine runOk_inv (fun o => DigestOk H o.f.name o.f.params) (fun op => ∀ n, op = .setName n → digests n = [])
      ?_ ops _ o ?_ ?_ h
    · intro o op ho hq hs
      exact (digest_step hH o op hs).2 ho hq
    · exact Or.inl ⟨rfl, rfl⟩
    · intro op hop n he; subst he; exact hn n hop
  exact ⟨this, (digestValid_iff (digestOk_le this)).mpr this⟩

/-- `isParametersDigestValid()` decides agreement of name and parameters. -/
theorem C29_check (H : Bytes → Bytes) (f : IFields) (h : (digests f.name).length ≤ 1) :
    f.digestValid H = true ↔ DigestOk H f.name f.params := digestValid_iff h

/-- The other components are kept in place: parameters only add or replace the digest component, and
removing them removes it. -/
theorem C29_other_components (H : Bytes → Bytes) (hH : ∀ x, (H x).length = 32) (n : List Comp) (ps : List Raw)
    (h : (digests n).length ≤ 1) :
    (addOrReplace H n ps).filter (fun c => ¬ IsDigest c) = n.filter (fun c => ¬ IsDigest c) ∧
    (digests n = [] → addOrReplace H n ps = n ++ [⟨2, H ((ps.map Raw.wire).flatten)⟩]) ∧
    (∀ (i : Nat) (c : Comp), n[i]? = some c → ¬ IsDigest c → (addOrReplace H n ps)[i]? = some c) := by
  have hd : IsDigest ⟨2, paramsDigest H ps⟩ := ⟨rfl, hH _⟩
  unfold addOrReplace
  rcases findDigest_spec n with ⟨h1, h2⟩ | ⟨a, c, b, h1, h2, h3, h4, h5, h6⟩ | ⟨h1, h2⟩
  · simp only [h2, if_true]
    refine ⟨?_, fun _ => rfl, ?_⟩
    · rw [List.filter_append, List.filter_cons_of_neg (by simpa using hd)]; simp
    · intro i c hi _
      rw [List.getElem?_append_left]
      · exact hi
      · exact (List.getElem?_eq_some_iff.mp hi).1
  · simp only [h6]
    rw [if_neg (by omega)]
    simp only [Int.toNat_natCast]
    refine ⟨?_, ?_, ?_⟩
    · rw [h1, List.set_append_right _ _ (by simp)]
      simp only [Nat.sub_self, List.set_cons_zero]
      rw [List.filter_append, List.filter_append, List.filter_cons_of_neg (by simpa using hd),
        List.filter_cons_of_neg (by simpa using h2)]
    · intro h; rw [h5] at h; simp at h
    · intro i d hi hnd
      rw [List.getElem?_set]
      by_cases ha : a.length = i
      · exfalso
        rw [h1, ← ha] at hi
        simp at hi
        subst hi; exact hnd h2
      · rw [if_neg ha]; exact hi
  · omega

/-- Histories with parameters, replaced and removed, all succeed. -/
example : ∃ o, runOk zeroHash true IObj.init [.setName [⟨8, [65]⟩], .setParams [1, 2],
    .setSigInfo ⟨none, ⟨some 0, none, []⟩⟩, .setSigValue [7], .wireEncode [1, 2, 3, 4], .unsetParams] = some o ∧
    o.f.name = [⟨8, [65]⟩] := by
  refine ⟨_, rfl, ?_⟩
  decide

/-! ### C73: the cached encoding -/

/-- Full claim: whatever calls were made before, an encoding that `wireEncode()` returns decodes to
the fields the object then has. -/
def C73_claim : Prop :=
  ∀ (H : Bytes → Bytes) (ops : List IOp) (rnd : Bytes) (b : Raw),
    (∀ x, (H x).length = 32) → (∀ c, IOp.wireDecode c ∈ ops → RawWF c) →
    ((run H true IObj.init ops).wireEncode H true rnd).2 = some b →
    interestDecode H true b = some ((run H true IObj.init ops).wireEncode H true rnd).1.f

/-- The claim fails: encoding an Interest with an empty name throws, but the refused encoding is kept
and returned by the next call. -/
theorem C73_stale_counterexample : ¬ C73_claim := by
  intro h
  have := h zeroHash [.wireEncode [0, 0, 0, 0]] [0, 0, 0, 0] _ (by intro x; simp [zeroHash]) (by simp) rfl
  revert this; decide

/-- After any calls that succeed, if `wireEncode()` returns an encoding then it is a TLV element which
decodes to the fields the object then has. Missing from the full property: histories with calls that
threw. -/
theorem C73_coherent_partial (H : Bytes → Bytes) (auto : Bool) (ops : List IOp) (o : IObj) (rnd : Bytes) (b : Raw)
    (hw : ∀ c, IOp.wireDecode c ∈ ops → RawWF c)
    (h : runOk H auto IObj.init ops = some o) (hb : (o.wireEncode H auto rnd).2 = some b) :
    RawWF b ∧ interestDecode H auto b = some (o.wireEncode H auto rnd).1.f ∧
      (o.wireEncode H auto rnd).1.wire = some b := by
  have inv : ∀ b, o.wire = some b → RawWF b ∧ interestDecode H auto b = some o.f := by
    refine runOk_inv (fun o => ∀ b, o.wire = some b → RawWF b ∧ interestDecode H auto b = some o.f)
      (fun op => ∀ c, op = .wireDecode c → RawWF c) ?_ ops _ o ?_ ?_ h
    · intro o op ho hq hs
      cases op with
      | setName n =>
        simp only [IObj.step] at hs ⊢
        split
        · exact ho
        · split
          · intro b hb; simp at hb
          · exact ho
      | setCanBePrefix x =>
        simp only [IObj.step]; split
        · intro b hb; simp at hb
        · exact ho
      | setMustBeFresh x =>
        simp only [IObj.step]; split
        · intro b hb; simp at hb
        · exact ho
      | setForwardingHint l => intro b hb; simp [IObj.step] at hb
      | getNonce rnd =>
        simp only [IObj.step, IObj.getNonce]; split
        · exact ho
        · intro b hb; simp at hb
      | setNonce n =>
        simp only [IObj.step]; split
        · intro b hb; simp at hb
        · exact ho
      | refreshNonce rnds =>
        simp only [IObj.step]; split
        · exact ho
        · split
          · exact ho
          · intro b hb; simp at hb
      | setLifetime ms =>
        simp only [IObj.step]; split
        · exact ho
        · split
          · intro b hb; simp at hb
          · exact ho
      | setHopLimit x =>
        simp only [IObj.step]; split
        · intro b hb; simp at hb
        · exact ho
      | setParamsBlock b => intro b hb; simp [IObj.step, IObj.setParamsInternal] at hb
      | setParams v => intro b hb; simp [IObj.step, IObj.setParamsInternal] at hb
      | unsetParams => intro b hb; simp [IObj.step] at hb
      | setSigInfo s =>
        simp only [IObj.step, IObj.setSigInfo] at hs ⊢
        cases he : s.wireEncode 44 with
        | none => rw [he] at hs; simp at hs
        | some r =>
          obtain ⟨s', enc⟩ := r
          rw [he] at hs
          simp only at hs ⊢
          by_cases hp : o.f.params = []
          · rw [if_pos hp] at hs ⊢
            have : ([binaryBlock 36 []] : List Raw)[firstParam 44 [binaryBlock 36 []]]? = none := by decide
            rw [this]
            intro b hb; simp at hb
          · rw [if_neg hp] at hs ⊢
            cases hg : o.f.params[firstParam 44 o.f.params]? with
            | none => intro b hb; simp at hb
            | some old =>
              simp only
              by_cases hq : old.equals enc = true
              · rw [if_pos hq]; exact ho
              · rw [if_neg hq]; intro b hb; simp at hb
      | setSigValue v =>
        simp only [IObj.step, IObj.setSigValue] at hs ⊢
        by_cases hi : firstParam 44 o.f.params ≥ o.f.params.length
        · rw [if_pos hi] at hs; simp at hs
        · rw [if_neg hi]
          cases hg : o.f.params[firstParam 46 o.f.params]? with
          | none => intro b hb; simp at hb
          | some old =>
            simp only
            by_cases hq : old.equals (binaryBlock 46 v) = true
            · rw [if_pos hq]; exact ho
            · rw [if_neg hq]; intro b hb; simp at hb
      | wireEncode rnd =>
        simp only [IObj.step] at hs ⊢
        obtain ⟨b, hb⟩ := Option.isSome_iff_exists.mp hs
        rcases wireEncode_cases H auto o rnd b hb with ⟨_, h2⟩ | ⟨h0, f, h1, h2⟩
        · rw [h2]; exact ho
        · rw [h2]; intro c hc; simp only [Option.some.injEq] at hc; subst hc; exact ⟨h0, h1⟩
      | wireDecode b =>
        simp only [IObj.step] at hs ⊢
        obtain ⟨f, h1, h2⟩ := (C28_decode_fresh H auto o (o.wireDecode H auto b).2 b).mp (Prod.ext hs rfl)
        rw [h2]
        intro c hc
        simp only [Option.some.injEq] at hc; subst hc
        exact ⟨hq b rfl, h1⟩
    · intro b hb; simp [IObj.init] at hb
    · intro op hop c he; subst he; exact hw c hop
  rcases wireEncode_cases H auto o rnd b hb with ⟨h1, h2⟩ | ⟨h0, f, h1, h2⟩
  · rw [h2]; exact ⟨(inv b h1).1, (inv b h1).2, h1⟩
  · rw [h2]; exact ⟨h0, h1, rfl⟩

example : ∃ o b, runOk zeroHash true IObj.init [.setName [⟨8, [65]⟩], .wireEncode [1, 2, 3, 4],
    .setMustBeFresh true] = some o ∧ (o.wireEncode zeroHash true []).2 = some b := ⟨_, _, rfl, rfl⟩

/-! ### C74: setters that throw -/

/-- Field setters. -/
def IOp.isSetter : IOp → Prop
  | .wireEncode _ => False
  | .wireDecode _ => False
  | _ => True

/-- Full claim: a setter that throws leaves the Interest as it was. -/
def C74_claim : Prop :=
  ∀ (H : Bytes → Bytes) (auto : Bool) (o : IObj) (op : IOp), op.isSetter →
    (o.step H auto op).1 = false → (o.step H auto op).2 = o

/-- The claim fails for `setSignatureInfo` with a SignatureInfo that cannot be encoded: an empty
ApplicationParameters has been added, without digest component. -/
theorem C74_setSignatureInfo_counterexample : ¬ C74_claim := by
  intro h
  have := h zeroHash true IObj.init (.setSigInfo ⟨none, SigInfo.init⟩) trivial (by decide)
  revert this; decide

/-- All other setters leave the Interest unchanged when they throw. -/
theorem C74_others_partial (H : Bytes → Bytes) (auto : Bool) (o : IObj) (op : IOp) (hs : op.isSetter)
    (hn : ∀ s, op ≠ .setSigInfo s) (hf : (o.step H auto op).1 = false) : (o.step H auto op).2 = o := by
  cases op with
  | wireEncode _ => exact absurd hs (by simp [IOp.isSetter])
  | wireDecode _ => exact absurd hs (by simp [IOp.isSetter])
  | setSigInfo s => exact absurd rfl (hn s)
  | setSigValue v =>
    simp only [IObj.step, IObj.setSigValue] at hf ⊢
    by_cases hi : firstParam 44 o.f.params ≥ o.f.params.length
    · rw [if_pos hi]
    · rw [if_neg hi] at hf
      split at hf
      · split at hf <;> simp at hf
      · simp at hf
  | setName n => simp only [IObj.step] at hf ⊢; (repeat' split) <;> simp_all
  | setCanBePrefix x => simp only [IObj.step] at hf; split at hf <;> simp at hf
  | setMustBeFresh x => simp only [IObj.step] at hf; split at hf <;> simp at hf
  | setForwardingHint l => simp [IObj.step] at hf
  | getNonce rnd => simp [IObj.step] at hf
  | setNonce n => simp only [IObj.step] at hf; split at hf <;> simp at hf
  | refreshNonce r => simp only [IObj.step] at hf ⊢; (repeat' split) <;> simp_all
  | setLifetime ms => simp only [IObj.step] at hf ⊢; (repeat' split) <;> simp_all
  | setHopLimit x => simp only [IObj.step] at hf; split at hf <;> simp at hf
  | setParamsBlock b => simp [IObj.step] at hf
  | setParams v => simp [IObj.step] at hf
  | unsetParams => simp [IObj.step] at hf

example : (IObj.init.step zeroHash true (.setSigValue [1])).1 = false ∧
    (IObj.init.step zeroHash true (.setLifetime (-1))).1 = false := by decide

/-! ### C30: matching -/

/-- With the full name at hand: an Interest matches exactly when its name is the Data name or the full
name, or, with CanBePrefix, a prefix of one of them. -/
theorem C30_match (f : IFields) (dn : List Comp) (d : Bytes) (hd : d.length = 32) :
    ∃ r, matchesData f dn (some (dn ++ [⟨1, d⟩])) = some r ∧
      (r = true ↔ f.name = dn ∨ f.name = dn ++ [⟨1, d⟩] ∨
        (f.canBePrefix = true ∧ (f.name <+: dn ∨ f.name <+: dn ++ [⟨1, d⟩]))) := by
  have pl : ∀ a b : List Comp, a <+: b → a.length ≤ b.length := fun a b h => h.length_le
  unfold matchesData
  by_cases hl : f.name.length = dn.length + 1
  · rw [if_pos hl]
    have hne : f.name ≠ dn := by intro h; rw [h] at hl; omega
    have hnp : ¬ f.name <+: dn := by intro h; have := pl _ _ h; omega
    have hpf : f.name <+: dn ++ [⟨1, d⟩] ↔ f.name = dn ++ [⟨1, d⟩] := by
      constructor
      · intro h; exact h.eq_of_length (by simp [hl])
      · intro h; rw [h]; exact List.prefix_rfl
    by_cases hi : (f.name.getLast?.map isImplicitDigest).getD false = true
    · rw [if_pos hi]
      refine ⟨_, rfl, ?_⟩
      rw [decide_eq_true_iff]
      simp only [hne, hnp, hpf, false_or]
      constructor
      · intro h; exact Or.inl h
      · rintro (h | h)
        · exact h
        · exact h.2
    · rw [if_neg hi]
      refine ⟨_, rfl, ?_⟩
      have hnf : f.name ≠ dn ++ [⟨1, d⟩] := by
        intro h; apply hi; rw [h]; simp [isImplicitDigest, hd]
      simp only [hne, hnp, hpf, hnf, false_or, and_false, Bool.false_eq_true]
  · rw [if_neg hl]
    have hnf : f.name ≠ dn ++ [⟨1, d⟩] := by intro h; rw [h] at hl; simp at hl
    have hpf : f.name <+: dn ++ [⟨1, d⟩] ↔ f.name <+: dn := by
      constructor
      · intro h
        have := pl _ _ h
        simp at this
        exact List.prefix_of_prefix_length_le h (List.prefix_append _ _) (by omega)
      · intro h; exact h.trans (List.prefix_append _ _)
    by_cases hc : f.canBePrefix = true
    · rw [if_pos hc]
      refine ⟨_, rfl, ?_⟩
      rw [List.isPrefixOf_iff_prefix]
      simp only [hnf, hc, hpf, false_or, true_and, or_self]
      constructor
      · intro h; exact Or.inr h
      · rintro (h | h)
        · rw [h]; exact List.prefix_rfl
        · exact h
    · rw [if_neg hc]
      refine ⟨_, rfl, ?_⟩
      rw [decide_eq_true_iff]
      simp only [hnf, hc, false_or, false_and, or_false, Bool.false_eq_true]

/-- On a Data object (any history without failed encode/decode calls, see C24) with an encoding: the
full name used is the one of that encoding. -/
theorem C30_match_data (H : Bytes → Bytes) (hH : ∀ x, (H x).length = 32) (f : IFields) (d : DObj) (w : Bytes)
    (hr : DReach H d) (hw : d.wire = some w) :
    ∃ r, matchesData f d.f.name (d.getFullName H).2 = some r ∧
      (r = true ↔ f.name = d.f.name ∨ f.name = d.f.name ++ [⟨1, H w⟩] ∨
        (f.canBePrefix = true ∧ (f.name <+: d.f.name ∨ f.name <+: d.f.name ++ [⟨1, H w⟩]))) := by
  have : (d.getFullName H).2 = some (d.f.name ++ [⟨1, H w⟩]) := by
    unfold DObj.getFullName
    by_cases hf : d.full = []
    · rw [if_pos hf, hw]
    · rw [if_neg hf]
      obtain ⟨w', h1, h2⟩ := hr.inv.2 hf
      rw [hw] at h1
      simp only [Option.some.injEq] at h1
      simp only [h2, h1]
  rw [this]
  exact C30_match f _ _ (hH _)

/-- On a Data without encoding (no full name), the call throws only if the Interest name could be a
full name (one component longer than the Data name, and that one a digest); otherwise the answer is by
name and prefix alone. -/
theorem C30_no_fullname (f : IFields) (dn : List Comp) :
    (matchesData f dn none = none ↔ f.name.length = dn.length + 1 ∧
      ∃ c, f.name.getLast? = some c ∧ c.type = 1 ∧ c.value.length = 32) ∧
    ∀ r, matchesData f dn none = some r →
      (r = true ↔ f.name = dn ∨ (f.canBePrefix = true ∧ f.name <+: dn)) := by
  unfold matchesData
  by_cases hl : f.name.length = dn.length + 1
  · simp only [if_pos hl]
    have hne : f.name ≠ dn := by intro h; rw [h] at hl; omega
    have hnp : ¬ f.name <+: dn := by intro h; have := h.length_le; omega
    cases hg : f.name.getLast? with
    | none => simp [hne, hnp]
    | some c =>
      simp only [Option.map_some, Option.getD_some]
      by_cases hc : isImplicitDigest c = true
      · rw [if_pos hc]
        refine ⟨⟨fun _ => ⟨hl, c, rfl, by simpa [isImplicitDigest] using hc⟩, fun _ => rfl⟩, by simp⟩
      · rw [if_neg hc]
        refine ⟨⟨by simp, ?_⟩, by simp [hne, hnp]⟩
        rintro ⟨_, c', h1, h2, h3⟩
        simp only [Option.some.injEq] at h1; subst h1
        exact absurd (by simp [isImplicitDigest, h2, h3]) hc
  · simp only [if_neg hl]
    by_cases hc : f.canBePrefix = true
    · simp only [if_pos hc]
      refine ⟨⟨by simp, fun h => absurd h.1 hl⟩, ?_⟩
      intro r hr
      simp only [Option.some.injEq] at hr; subst hr
      rw [List.isPrefixOf_iff_prefix]
      simp only [hc, true_and]
      constructor
      · exact Or.inr
      · rintro (h | h)
        · rw [h]; exact List.prefix_rfl
        · exact h
    · simp only [if_neg hc]
      refine ⟨⟨by simp, fun h => absurd h.1 hl⟩, ?_⟩
      intro r hr
      simp only [Option.some.injEq] at hr; subst hr
      simp [hc]

/-- An Interest for the full name, one for a prefix, and one for another name. -/
example : matchesData { IFields.cleared [⟨8, [1]⟩, ⟨1, List.replicate 32 7⟩] with canBePrefix := false } [⟨8, [1]⟩]
      (some [⟨8, [1]⟩, ⟨1, List.replicate 32 7⟩]) = some true ∧
    matchesData { IFields.cleared [⟨8, [1]⟩] with canBePrefix := true } [⟨8, [1]⟩, ⟨8, [2]⟩] none = some true ∧
    matchesData (IFields.cleared [⟨8, [1]⟩]) [⟨8, [1]⟩, ⟨8, [2]⟩] none = some false := by decide

end Ndn.Interest
