import Verif.Packet.DataLemmas
/-
Properties C21-C27 of MetaInfo, KeyLocator, SignatureInfo and Data.
-/
namespace Ndn.Packet
open Tlv Block Block.Spec Name Name.Spec Spec

/-! ### Helpers for statements -/

theorem fromBuffer_tlvBytes {t : Nat} {v : Bytes} (h0 : 1 ≤ t) (h1 : t ≤ 2 ^ 32 - 1) (hv : v.length < 2 ^ 64) :
    fromBuffer (tlvBytes t v) = some (binaryBlock t v, []) := by
  have := fromBuffer_tlv (t := t) (v := v) [] h0 h1 hv
  rw [List.append_nil] at this
  exact this

theorem fromRange_tlvBytes {t : Nat} {v : Bytes} (h0 : 1 ≤ t) (h1 : t ≤ 2 ^ 32 - 1) (hv : v.length < 2 ^ 64) :
    fromRange (tlvBytes t v) true = some (binaryBlock t v) := by
  rw [fromRange_iff]; exact ⟨rfl, tlv_form h0 h1 hv⟩

/-! ### C21: MetaInfo -/

/-- Decoding an encoded MetaInfo gives an equal MetaInfo. -/
theorem C21_roundtrip (m : MetaInfo) (h : MetaWF m) :
    ∃ b, fromBuffer m.encode = some (b, []) ∧ b.type = 20 ∧ MetaInfo.init.wireDecode b = (true, m) := by
  have hs := h.size
  rw [MetaInfo.encode_eq] at hs ⊢
  have := tlvBytes_ge 20 ((m.elems.map Raw.wire).flatten)
  refine ⟨_, fromBuffer_tlvBytes (by decide) (by decide) (by omega), rfl, ?_⟩
  rw [MetaInfo.decode_elems h _ (readsAs_of (MetaInfo.elems_wf h))]
  simp [MetaInfo.init]

example : MetaWF ⟨3, 4000, some ⟨8, [1, 2]⟩, [binaryBlock 200 [7]]⟩ where
  type := by decide
  fresh := by decide
  final := by rintro c ⟨⟩; unfold ValidComp; decide
  app := by
    intro b hb
    simp only [List.mem_singleton] at hb; subst hb
    exact ⟨binaryBlock_wf (by decide) (by decide) (by decide), by decide, by decide, by decide⟩
  size := by decide

/-- What decoding accepts and yields, in a new object. -/
theorem C21_decode_exact (b : Raw) (m : MetaInfo) :
    MetaInfo.init.wireDecode b = (true, m) ↔ ∃ es, ReadsAs b.value es ∧ MetaGrammar es m :=
  metaDecode_iff b m

/-- Full claim: nothing of the previous contents survives a decode. -/
def C21_reset_claim : Prop :=
  ∀ (m0 m : MetaInfo) (b : Raw), m0.wireDecode b = (true, m) → MetaInfo.init.wireDecode b = (true, m)

/-- The claim fails: application elements of the previous contents stay. -/
theorem C21_reset_counterexample : ¬ C21_reset_claim := by
  intro h
  have := h ⟨0, 0, none, [binaryBlock 200 []]⟩ ⟨0, 0, none, [binaryBlock 200 []]⟩ ⟨20, [20, 0], []⟩ (by decide)
  revert this; decide

/-- What holds: type, freshness and final block are those of the encoding; the application elements
are the old ones followed by those of the encoding. In particular an object without application
elements keeps nothing. -/
theorem C21_reset_partial (m0 m : MetaInfo) (b : Raw) (h : MetaInfo.init.wireDecode b = (true, m)) :
    m0.wireDecode b = (true, { m with app := m0.app ++ m.app }) := by
  rw [metaDecode_eq] at h ⊢
  cases hp : parseElements b.value with
  | none => rw [hp] at h; simp at h
  | some es =>
    rw [hp] at h
    simp only at h ⊢
    cases h1 : takeNni 24 (2 ^ 32 - 1) es with
    | none => rw [h1] at h; simp at h
    | some p =>
      obtain ⟨ct, es1⟩ := p
      rw [h1] at h
      simp only at h ⊢
      cases h2 : takeNni 25 (2 ^ 64 - 1) es1 with
      | none => rw [h2] at h; simp at h
      | some q =>
        obtain ⟨fp, es2⟩ := q
        rw [h2] at h
        simp only at h ⊢
        rw [metaTail_iff] at h ⊢
        obtain ⟨fb, app, e1, e2, e3, e4, e5, e6⟩ := h
        refine ⟨fb, app, e1, e2, e3, ?_, e5, e6⟩
        simp only [e4, MetaInfo.init, List.nil_append]

/-- Full claim: what was decoded is encoded to something that decodes to the same. -/
def C21_reencode_claim : Prop :=
  ∀ (b b' : Raw) (m : MetaInfo), MetaInfo.init.wireDecode b = (true, m) →
    fromBuffer m.encode = some (b', []) → MetaInfo.init.wireDecode b' = (true, m)

/-- The claim fails: `FreshnessPeriod = 0` followed by a late ContentType (kept as an application
element) is re-encoded without the FreshnessPeriod, and then the ContentType is recognised. -/
theorem C21_reencode_counterexample : ¬ C21_reencode_claim := by
  intro h
  have := h ⟨20, [20, 6, 25, 1, 0, 24, 1, 5], [25, 1, 0, 24, 1, 5]⟩ ⟨20, [20, 3, 24, 1, 5], [24, 1, 5]⟩
    ⟨0, 0, none, [⟨24, [24, 1, 5], [5]⟩]⟩ (by decide) (by decide)
  revert this; decide

theorem metaDecode_app_nil {m0 m : MetaInfo} {b : Raw} (h0 : m0.app = []) (h : m0.wireDecode b = (true, m)) :
    MetaInfo.init.wireDecode b = (true, m) := by
  rw [metaDecode_eq] at h ⊢
  cases hp : parseElements b.value with
  | none => rw [hp] at h; simp at h
  | some es =>
    rw [hp] at h
    simp only at h ⊢
    cases h1 : takeNni 24 (2 ^ 32 - 1) es with
    | none => rw [h1] at h; simp at h
    | some p =>
      obtain ⟨ct, es1⟩ := p
      rw [h1] at h
      simp only at h ⊢
      cases h2 : takeNni 25 (2 ^ 64 - 1) es1 with
      | none => rw [h2] at h; simp at h
      | some q =>
        obtain ⟨fp, es2⟩ := q
        rw [h2] at h
        simp only at h ⊢
        rw [metaTail_iff] at h ⊢
        obtain ⟨fb, app, e1, e2, e3, e4, e5, e6⟩ := h
        refine ⟨fb, app, e1, e2, e3, ?_, e5, e6⟩
        simp only [e4, h0, MetaInfo.init]

/-- Reachable states of a MetaInfo object: any calls, where `wireDecode` is given a well-formed
element, succeeds, and is made on an object without application elements. -/
inductive MReach : MObj → Prop
  | init : MReach ⟨none, MetaInfo.init⟩
  | step {o op} : MReach o → (∀ b, op = .wireDecode b → RawWF b ∧ o.m.app = [] ∧ (o.step op).1 = true) →
      MReach (o.step op).2

/-- After any such history `wireEncode()` returns an encoding of the current values.
Missing from the full property: decoding on top of application elements (`C21_reset_counterexample`). -/
theorem C21_history_partial {o : MObj} (hr : MReach o) (hw : MetaWF o.m) :
    ∃ b, b.wire = o.wireEncode.2 ∧ RawWF b ∧ MetaInfo.init.wireDecode b = (true, o.m) := by
  have inv : ∀ w, o.wire = some w → w = o.m.encode ∨
      ∃ b, b.wire = w ∧ RawWF b ∧ MetaInfo.init.wireDecode b = (true, o.m) := by
    clear hw
    induction hr with
    | init => simp
    | @step o op _ hd ih =>
      intro w hw
      cases op with
      | setType t => simp [MObj.step] at hw
      | setFreshness ms =>
        simp only [MObj.step] at hw ⊢
        by_cases h : ms < 0
        · simp only [if_pos h] at hw ⊢; exact ih w hw
        · simp [if_neg h] at hw
      | setFinalBlock c => simp [MObj.step] at hw
      | setApp l =>
        simp only [MObj.step] at hw ⊢
        by_cases h : l.any (fun b => b.type < 128 || b.type > 252) = true
        · simp only [if_pos h] at hw ⊢; exact ih w hw
        · rw [if_neg h] at hw; simp at hw
      | addApp b =>
        simp only [MObj.step] at hw ⊢
        by_cases h : 128 ≤ b.type ∧ b.type ≤ 252
        · simp [if_pos h] at hw
        · simp only [if_neg h] at hw ⊢; exact ih w hw
      | removeApp t =>
        simp only [MObj.step] at hw ⊢
        cases hr : removeFirst t o.m.app with
        | none => simp only [hr] at hw ⊢; exact ih w hw
        | some l => simp [hr] at hw
      | wireEncode =>
        simp only [MObj.step, MObj.wireEncode] at hw ⊢
        cases ho : o.wire with
        | none =>
          simp only [ho, Option.some.injEq] at hw ⊢
          exact Or.inl hw.symm
        | some w' =>
          simp only [ho] at hw ⊢
          rw [ho] at ih
          exact ih w hw
      | wireDecode b =>
        obtain ⟨h1, h2, h3⟩ := hd b rfl
        simp only [MObj.step, Option.some.injEq] at hw h3 ⊢
        refine Or.inr ⟨b, hw, h1, ?_⟩
        have hq : o.m.wireDecode b = (true, (o.m.wireDecode b).2) := by rw [← h3]
        exact metaDecode_app_nil h2 hq
  unfold MObj.wireEncode
  cases ho : o.wire with
  | none =>
    obtain ⟨b, h1, _, h3⟩ := C21_roundtrip o.m hw
    rw [fromBuffer_iff] at h1
    exact ⟨b, by simpa using h1.1.symm, by simpa [RawWF] using h1.2, h3⟩
  | some w =>
    simp only
    rcases inv w ho with h | ⟨b, h1, h2, h3⟩
    · obtain ⟨b, h1, _, h3⟩ := C21_roundtrip o.m hw
      rw [fromBuffer_iff] at h1
      exact ⟨b, by rw [h]; simpa using h1.1.symm, by simpa [RawWF] using h1.2, h3⟩
    · exact ⟨b, h1, h2, h3⟩

/-! ### C22: KeyLocator and SignatureInfo -/

/-- Decoding an encoded KeyLocator gives an equal KeyLocator. -/
theorem C22_keylocator (k : KeyLoc) (h : KeyLocWF k) (hs : ∀ w, k.encode = some w → w.length < 2 ^ 64) :
    ∃ w b, k.encode = some w ∧ fromBuffer w = some (b, []) ∧ b.type = 28 ∧ KeyLoc.decode b = some k := by
  have he := KeyLoc.encode_eq h
  have hs := hs _ he
  have := tlvBytes_ge 28 ((k.elems.map Raw.wire).flatten)
  exact ⟨_, k.raw, he, fromBuffer_tlvBytes (by decide) (by decide) (by omega), rfl,
    (KeyLoc.decode_raw h hs).2⟩

example : KeyLocWF (.name [⟨8, [65]⟩]) ∧ KeyLocWF (.digest (binaryBlock 29 [1])) := by
  refine ⟨?_, binaryBlock_wf (by decide) (by decide) (by decide), rfl⟩
  intro c hc
  simp only [List.mem_singleton] at hc; subst hc; decide

/-- Decoding an encoded SignatureInfo, in either variant, gives an equal SignatureInfo, and the
element has the TLV-TYPE of the variant. -/
theorem C22_roundtrip (s : SigInfo) (h : SigWF s) (t : Nat) (ht : t = 22 ∨ t = 44) :
    ∃ w b, s.encode t = some w ∧ fromBuffer w = some (b, []) ∧ b.type = t ∧
      SigInfo.wireDecode b t = (true, s) := by
  refine ⟨_, _, SigInfo.encode_eq h t,
    fromBuffer_tlvBytes (by omega) (by omega) (SigInfo.elems_size h), rfl, ?_⟩
  exact SigInfo.decode_encode h _ t rfl rfl

example : SigWF ⟨some 3, some (.name [⟨8, [65]⟩]), [binaryBlock 38 [1, 2], binaryBlock 253 [], binaryBlock 40 [9]]⟩ where
  type := ⟨3, rfl, by decide⟩
  key := by
    rintro k ⟨⟩ c hc
    simp only [List.mem_singleton] at hc; subst hc; decide
  others := by
    intro b hb
    simp only [List.mem_cons, List.not_mem_nil, or_false] at hb
    rcases hb with rfl | rfl | rfl <;>
      exact ⟨binaryBlock_wf (by decide) (by decide) (by decide), by decide, by decide, by decide, by decide⟩
  size := by
    intro t w hw
    simp only [SigInfo.encode, KeyLoc.encode, Option.some.injEq] at hw
    subst hw
    have h5 : ∀ n, (writeVarNumber n).length ≤ 9 := by
      intro n; rw [writeVarNumber_length]; unfold sizeOfVarNumber; (repeat' split) <;> omega
    rw [tlvBytes_length]
    have := h5 t
    have := h5 (nniTlv 27 3 ++ tlvBytes 28 (encodeComps [⟨8, [65]⟩]) ++
      ([binaryBlock 38 [1, 2], binaryBlock 253 [], binaryBlock 40 [9]].map Raw.wire).flatten).length
    have : (nniTlv 27 3 ++ tlvBytes 28 (encodeComps [⟨8, [65]⟩]) ++
      ([binaryBlock 38 [1, 2], binaryBlock 253 [], binaryBlock 40 [9]].map Raw.wire).flatten).length ≤ 100 := by decide
    omega

/-- What SignatureInfo decoding accepts and yields. -/
theorem C22_decode_exact (b : Raw) (t : Nat) (s : SigInfo) :
    SigInfo.wireDecode b t = (true, s) ↔ b.type = t ∧ ∃ es, ReadsAs b.value es ∧ SigGrammar es s :=
  sigDecode_iff b t s

/-- Full claim: the element returned by `wireEncode(variant)` has the TLV-TYPE of the variant. -/
def C22_variant_claim : Prop :=
  ∀ (ops : List SOp) (t : Nat) (o' : SObj) (r : Raw),
    (ops.foldl (fun (o : SObj) op => (o.step op).2) ⟨none, SigInfo.init⟩).wireEncode t = some (o', r) → r.type = t

/-- The claim fails: encode as Data SignatureInfo, then as InterestSignatureInfo: the cached element
of the other variant is returned. -/
theorem C22_variant_counterexample : ¬ C22_variant_claim := by
  intro h
  have := h [.setType 0, .wireEncode 22] 44 ⟨some ⟨22, [22, 3, 27, 1, 0], [27, 1, 0]⟩, ⟨some 0, none, []⟩⟩
    ⟨22, [22, 3, 27, 1, 0], [27, 1, 0]⟩ (by decide)
  revert this; decide

/-- Reachable states when one variant `t` is used throughout; decoding is given well-formed elements
and succeeds. -/
inductive SReach (t : Nat) : SObj → Prop
  | init : SReach t ⟨none, SigInfo.init⟩
  | step {o op} : SReach t o → (∀ u, op = .wireEncode u → u = t ∧ (o.wire = none → SigWF o.s)) →
      (∀ b u, op = .wireDecode b u → u = t ∧ RawWF b ∧ (o.step op).1 = true) →
      SReach t (o.step op).2

/-- With one variant used throughout, `wireEncode` returns, after any history, an element of that
variant's TLV-TYPE which decodes to the current values.
Missing from the full property: mixing variants on one object (`C22_variant_counterexample`). -/
theorem C22_history_partial (t : Nat) (ht : t = 22 ∨ t = 44) {o : SObj} (hr : SReach t o) (hw : SigWF o.s) :
    ∃ o' r, o.wireEncode t = some (o', r) ∧ o'.s = o.s ∧ RawWF r ∧ r.type = t ∧
      SigInfo.wireDecode r t = (true, o.s) := by
  have enc : ∀ s, SigWF s → ∃ w, s.encode t = some w ∧ ∃ r, fromRange w true = some r ∧ RawWF r ∧ r.type = t ∧
      SigInfo.wireDecode r t = (true, s) := by
    intro s hs
    refine ⟨_, SigInfo.encode_eq hs t, _, fromRange_tlvBytes (by omega) (by omega) (SigInfo.elems_size hs), ?_, rfl, ?_⟩
    · exact binaryBlock_wf (by omega) (by omega) (SigInfo.elems_size hs)
    · exact SigInfo.decode_encode hs _ t rfl rfl
  have inv : ∀ r, o.wire = some r → RawWF r ∧ r.type = t ∧ SigInfo.wireDecode r t = (true, o.s) := by
    clear hw
    induction hr with
    | init => simp
    | @step o op _ h1 h2 ih =>
      intro r hr
      cases op with
      | setType u =>
        simp only [SObj.step] at hr ⊢
        by_cases h : some u ≠ o.s.type
        · simp [if_pos h] at hr
        · simp only [if_neg h] at hr ⊢; exact ih r hr
      | setKeyLocator k =>
        simp only [SObj.step] at hr ⊢
        by_cases h : optKeyLocEq k o.s.keyLocator = true
        · simp only [if_pos h] at hr ⊢; exact ih r hr
        · simp [if_neg h] at hr
      | addCustom b =>
        simp only [SObj.step, SObj.addCustom] at hr ⊢
        cases hf : findOther b.type o.s.others with
        | none => simp [hf] at hr
        | some x =>
          simp only [hf] at hr ⊢
          by_cases h : x.equals b = true
          · simp only [if_pos h] at hr ⊢; exact ih r hr
          · simp [if_neg h] at hr
      | removeCustom u =>
        simp only [SObj.step, SObj.removeCustom] at hr ⊢
        by_cases h : (o.s.others.filter (fun b => b.type ≠ u)).length ≠ o.s.others.length
        · rw [if_pos h] at hr; simp at hr
        · rw [if_neg h] at hr ⊢; exact ih r hr
      | wireEncode u =>
        obtain ⟨hu, hs⟩ := h1 u rfl
        subst hu
        simp only [SObj.step, SObj.wireEncode] at hr ⊢
        cases ho : o.wire with
        | some w =>
          simp only [ho] at hr ⊢
          rw [ho] at ih
          exact ih r hr
        | none =>
          obtain ⟨w, e1, q, e2, e3, e4, e5⟩ := enc o.s (hs ho)
          simp only [ho, e1, e2] at hr ⊢
          simp only [Option.some.injEq] at hr
          subst hr
          exact ⟨e3, e4, e5⟩
      | wireDecode b u =>
        obtain ⟨hu, hb, hok⟩ := h2 b u rfl
        subst hu
        simp only [SObj.step, Option.some.injEq] at hr hok ⊢
        subst hr
        have : SigInfo.wireDecode b u = (true, (SigInfo.wireDecode b u).2) := by rw [← hok]
        exact ⟨hb, ((sigDecode_iff _ _ _).mp this).1, this⟩
  unfold SObj.wireEncode
  cases ho : o.wire with
  | some r =>
    obtain ⟨a, b, c⟩ := inv r ho
    exact ⟨o, r, rfl, rfl, a, b, c⟩
  | none =>
    obtain ⟨w, e1, q, e2, e3, e4, e5⟩ := enc o.s hw
    simp only [e1, e2]
    exact ⟨_, _, rfl, rfl, e3, e4, e5⟩

/-- Custom elements behave as a map from TLV-TYPE to element (up to equality of blocks): after adding
`b`, looking up its type gives a block equal to `b`, and other types are unaffected. -/
theorem C22_custom_add (o : SObj) (b : Raw) :
    (∃ x, findOther b.type (o.addCustom b).s.others = some x ∧ x.type = b.type ∧ x.value = b.value) ∧
    ∀ t, t ≠ b.type → findOther t (o.addCustom b).s.others = findOther t o.s.others := by
  unfold SObj.addCustom
  cases hf : findOther b.type o.s.others with
  | none =>
    simp only
    unfold findOther at hf ⊢
    refine ⟨⟨b, ?_, rfl, rfl⟩, ?_⟩
    · rw [List.find?_append, hf]; simp
    · intro t ht
      rw [List.find?_append]
      have : ([b].find? (fun b => decide (b.type = t))) = none := by
        simp [Ne.symm ht]
      rw [this]; simp
  | some x =>
    have hx : x.type = b.type := by
      unfold findOther at hf
      simpa using List.find?_some hf
    simp only
    by_cases h : x.equals b = true
    · rw [if_pos h]
      refine ⟨⟨x, hf, hx, ?_⟩, fun _ _ => rfl⟩
      unfold Raw.equals at h
      simp at h; exact h.2
    · rw [if_neg h]
      simp only
      have : ∀ l, findOther b.type l = some x → findOther b.type (replaceFirst b l) = some b ∧
          ∀ t, t ≠ b.type → findOther t (replaceFirst b l) = findOther t l := by
        intro l
        induction l with
        | nil => intro h; simp [findOther] at h
        | cons y l ih =>
          intro hy
          by_cases hyt : y.type = b.type
          · simp only [replaceFirst, if_pos hyt]
            refine ⟨by simp [findOther], ?_⟩
            intro t ht
            have h1 : ¬ b.type = t := fun h => ht h.symm
            have h2 : ¬ y.type = t := by rw [hyt]; exact h1
            simp [findOther, List.find?_cons, h1, h2]
          · simp only [replaceFirst, if_neg hyt]
            have hy' : findOther b.type l = some x := by
              simpa [findOther, List.find?_cons, hyt] using hy
            obtain ⟨i1, i2⟩ := ih hy'
            refine ⟨?_, ?_⟩
            · simpa [findOther, List.find?_cons, hyt] using i1
            · intro t ht
              by_cases h1 : y.type = t
              · simp [findOther, List.find?_cons, h1]
              · simpa [findOther, List.find?_cons, h1] using i2 t ht
      obtain ⟨a, c⟩ := this _ hf
      exact ⟨⟨b, a, rfl, rfl⟩, c⟩

/-- Adding an element whose type is present replaces it in place (the sequence of types that will be
encoded is the same); otherwise it is appended. Nothing else is encoded more or less often. -/
theorem C22_custom_order (o : SObj) (b : Raw) :
    (o.addCustom b).s.others.map Raw.type =
      if b.type ∈ o.s.others.map Raw.type then o.s.others.map Raw.type
      else o.s.others.map Raw.type ++ [b.type] := by
  have hrep : ∀ l : List Raw, (replaceFirst b l).map Raw.type = l.map Raw.type := by
    intro l
    induction l with
    | nil => rfl
    | cons y l ih =>
      unfold replaceFirst
      by_cases h : y.type = b.type
      · rw [if_pos h]; simp [h]
      · rw [if_neg h]; simp [ih]
  unfold SObj.addCustom
  cases hf : findOther b.type o.s.others with
  | none =>
    unfold findOther at hf
    rw [List.find?_eq_none] at hf
    rw [if_neg]
    · simp
    · intro hm
      obtain ⟨x, hx, hxt⟩ := List.mem_map.mp hm
      exact hf x hx (by simpa using hxt)
  | some x =>
    unfold findOther at hf
    have h1 := List.mem_of_find?_eq_some hf
    have h2 := List.find?_some hf
    rw [if_pos (List.mem_map.mpr ⟨x, h1, by simpa using h2⟩)]
    simp only
    by_cases h : x.equals b = true
    · rw [if_pos h]
    · rw [if_neg h]; exact hrep _

/-- After removing a type it is absent, and other types are unaffected. -/
theorem C22_custom_remove (o : SObj) (t : Nat) :
    findOther t (o.removeCustom t).s.others = none ∧
    ∀ u, u ≠ t → findOther u (o.removeCustom t).s.others = findOther u o.s.others := by
  have e : (o.removeCustom t).s.others = o.s.others.filter (fun b => b.type ≠ t) := by
    unfold SObj.removeCustom
    by_cases h : (o.s.others.filter (fun b => b.type ≠ t)).length ≠ o.s.others.length
    · rw [if_pos h]
    · rw [if_neg h]
      symm
      rw [List.filter_eq_self]
      exact List.length_filter_eq_length_iff.mp (by omega)
  rw [e]
  refine ⟨?_, ?_⟩
  · simp [findOther]
  · intro u hu
    unfold findOther
    induction o.s.others with
    | nil => rfl
    | cons y l ih =>
      by_cases h : y.type = t
      · rw [List.filter_cons_of_neg (by simp [h]), ih, List.find?_cons]
        have : ¬ y.type = u := by rw [h]; exact fun h => hu h.symm
        simp [this]
      · rw [List.filter_cons_of_pos (by simp [h]), List.find?_cons, List.find?_cons, ih]

/-! ### C23: Data round trip -/

/-- The elements in the value of an encoded Data. -/
def DFields.elems (f : DFields) (sv : Raw) : List Raw :=
  [nameRaw f.name, binaryBlock 20 ((f.minfo.elems.map Raw.wire).flatten)] ++ f.content.toList ++
    [binaryBlock 22 ((f.sigInfo.elems.map Raw.wire).flatten), sv]

theorem DFields.encodeUnsigned_eq {f : DFields} (h : DataWF f) :
    f.encodeUnsigned = some ((nameRaw f.name).wire ++
      (binaryBlock 20 ((f.minfo.elems.map Raw.wire).flatten)).wire ++
      ((f.content.toList).map Raw.wire).flatten ++
      (binaryBlock 22 ((f.sigInfo.elems.map Raw.wire).flatten)).wire) := by
  unfold DFields.encodeUnsigned
  rw [SigInfo.encode_eq h.sigInfo]
  simp only [nameRaw_wire, MetaInfo.encode_eq]
  cases f.content <;> simp [binaryBlock]

theorem DFields.encode_eq {f : DFields} (h : DataWF f) {sv : Raw} (hsv : f.sigValue = some sv) :
    f.encode = some (tlvBytes 6 (((f.elems sv).map Raw.wire).flatten)) := by
  obtain ⟨t, ht, _⟩ := h.sigInfo.type
  unfold DFields.encode
  rw [if_neg (by rw [ht]; simp), DFields.encodeUnsigned_eq h, hsv]
  simp [DFields.elems]

theorem DFields.elems_ok {f : DFields} (h : DataWF f) {sv : Raw} (hsv : f.sigValue = some sv) :
    (((f.elems sv).map Raw.wire).flatten).length < 2 ^ 64 ∧
    ReadsAs (((f.elems sv).map Raw.wire).flatten) (f.elems sv) ∧ DataGrammar (f.elems sv) f := by
  have hsz := h.size _ (DFields.encode_eq h hsv)
  have hge := tlvBytes_ge 6 (((f.elems sv).map Raw.wire).flatten)
  have hlen : (((f.elems sv).map Raw.wire).flatten).length < 2 ^ 64 := by omega
  have hsvw : RawWF sv ∧ sv.type = 23 := by
    obtain ⟨v, hv, h1, h2⟩ := h.sigValue
    rw [hsv] at hv; simp only [Option.some.injEq] at hv; subst hv; exact ⟨h1, h2⟩
  have hname : (encodeComps f.name).length < 2 ^ 64 := by
    have : nameRaw f.name ∈ f.elems sv := by simp [DFields.elems]
    have := flatten_mem_le this
    rw [nameRaw_wire] at this; omega
  have hmeta : ((f.minfo.elems.map Raw.wire).flatten).length < 2 ^ 64 := by
    have h1 := h.minfo.size
    rw [MetaInfo.encode_eq] at h1
    have := tlvBytes_ge 20 ((f.minfo.elems.map Raw.wire).flatten)
    omega
  have hwf : ∀ e ∈ f.elems sv, RawWF e := by
    intro e he
    simp only [DFields.elems, List.mem_append, List.mem_cons, List.not_mem_nil, or_false,
      Option.mem_toList] at he
    rcases he with (he | he) | he
    · rcases he with rfl | rfl
      · exact nameRaw_wf hname
      · exact binaryBlock_wf (by decide) (by decide) hmeta
    · exact (h.content e he).1
    · rcases he with rfl | rfl
      · exact binaryBlock_wf (by decide) (by decide) (SigInfo.elems_size h.sigInfo)
      · exact hsvw.1
  refine ⟨hlen, readsAs_of hwf, ?_⟩
  have hct : ∀ e ∈ f.content, e.type = 21 := fun e he => (h.content e he).2
  refine ⟨nameRaw f.name, [binaryBlock 20 ((f.minfo.elems.map Raw.wire).flatten)] ++ f.content.toList ++
    [binaryBlock 22 ((f.sigInfo.elems.map Raw.wire).flatten), sv], some (binaryBlock 20 ((f.minfo.elems.map Raw.wire).flatten)), f.content,
    binaryBlock 22 ((f.sigInfo.elems.map Raw.wire).flatten), sv, rfl, rfl, ?_, ?_, ?_, ?_, hct, rfl, hsvw.2, ?_, rfl, ?_, hsv⟩
  · refine ⟨nameElems f.name, readsAs_of (nameElems_wf h.name hname), ?_⟩
    exact (rawComps_nameElems f.name).symm
  · intro e he
    simp only [List.mem_append, List.mem_cons, List.not_mem_nil, or_false, Option.mem_toList] at he
    rcases he with (he | he) | he
    · rw [he]; exact Or.inl rfl
    · exact Or.inr (Or.inl (hct e he))
    · rcases he with rfl | rfl
      · exact Or.inr (Or.inr (Or.inl rfl))
      · exact Or.inr (Or.inr (Or.inr (Or.inl hsvw.2)))
  · rw [List.filter_eq_self.mpr]
    · simp
    · intro e he
      simp only [List.mem_append, List.mem_cons, List.not_mem_nil, or_false, Option.mem_toList] at he
      rcases he with (he | he) | he
      · rw [he]; rfl
      · simp [hct e he]
      · rcases he with rfl | rfl
        · rfl
        · simp [hsvw.2]
  · intro e he; simp at he; subst he; rfl
  · simp only
    rw [← metaDecode_iff, MetaInfo.decode_elems h.minfo _ (readsAs_of (MetaInfo.elems_wf h.minfo))]
    simp [MetaInfo.init]
  · exact ⟨f.sigInfo.elems, readsAs_of (SigInfo.elems_wf h.sigInfo), SigInfo.grammar_elems h.sigInfo⟩

theorem dataDecode_iff (b : Raw) (f : DFields) :
    dataDecode b = some f ↔ b.type = 6 ∧ ∃ es, ReadsAs b.value es ∧ DataGrammar es f := by
  have key := DObj.wireDecode_iff (DObj.init []) ⟨f, some b.wire, []⟩ b
  unfold dataDecode
  constructor
  · intro h
    split at h
    · rename_i d hd
      simp only [Option.some.injEq] at h; subst h
      obtain ⟨h1, es, f, h2, h3, h4⟩ := (DObj.wireDecode_iff _ _ _).mp hd
      subst h4
      exact ⟨h1, es, h2, h3⟩
    · simp at h
  · rintro ⟨h1, es, h2, h3⟩
    rw [key.mpr ⟨h1, es, f, h2, h3, rfl⟩]

/-- For every Data, decoding the encoding gives equal fields; the decoded object encodes to the same
octets, from its cache and from its fields alike. -/
theorem C23_roundtrip (f : DFields) (h : DataWF f) :
    ∃ w b, f.encode = some w ∧ fromBuffer w = some (b, []) ∧ dataDecode b = some f ∧
      ∀ d d', DObj.wireDecode d b = (true, d') → d'.f = f ∧ d'.wireEncode.2 = some w := by
  obtain ⟨sv, hsv, _⟩ := h.sigValue
  obtain ⟨h1, h2, h3⟩ := DFields.elems_ok h hsv
  have hdec : dataDecode (binaryBlock 6 (((f.elems sv).map Raw.wire).flatten)) = some f :=
    (dataDecode_iff _ _).mpr ⟨rfl, _, h2, h3⟩
  refine ⟨_, _, DFields.encode_eq h hsv, fromBuffer_tlvBytes (by decide) (by decide) h1, hdec, ?_⟩
  intro d d' hd
  obtain ⟨e1, es, g, e2, e3, rfl⟩ := (DObj.wireDecode_iff _ _ _).mp hd
  have : dataDecode (binaryBlock 6 (((f.elems sv).map Raw.wire).flatten)) = some g :=
    (dataDecode_iff _ _).mpr ⟨e1, es, e2, e3⟩
  rw [hdec] at this
  simp only [Option.some.injEq] at this
  exact ⟨this.symm, rfl⟩

/-- A concrete packet meeting the hypotheses. -/
def sampleData : DFields :=
  ⟨[⟨8, [65]⟩, ⟨8, []⟩], ⟨0, 1000, none, []⟩, some (binaryBlock 21 [1, 2, 3]), ⟨some 0, none, []⟩,
   some (binaryBlock 23 [9])⟩

theorem sampleData_wf : DataWF sampleData where
  name := by
    intro c hc
    simp only [sampleData, List.mem_cons, List.not_mem_nil, or_false] at hc
    rcases hc with rfl | rfl <;> decide
  minfo := ⟨by decide, by decide, by intro c hc; simp [sampleData] at hc, by intro b hb; simp [sampleData] at hb, by decide⟩
  content := by
    intro c hc
    simp only [sampleData, Option.some.injEq] at hc; subst hc
    exact ⟨binaryBlock_wf (by decide) (by decide) (by decide), rfl⟩
  sigInfo := ⟨⟨0, rfl, by decide⟩, by intro k hk; simp [sampleData] at hk, by intro b hb; simp [sampleData] at hb, by
    intro t w hw
    simp only [sampleData, SigInfo.encode, Option.some.injEq] at hw
    subst hw
    rw [tlvBytes_length]
    have h5 : ∀ n, (writeVarNumber n).length ≤ 9 := by
      intro n; rw [writeVarNumber_length]; unfold sizeOfVarNumber; (repeat' split) <;> omega
    have := h5 t
    have := h5 (nniTlv 27 0 ++ [] ++ (([] : List Raw).map Raw.wire).flatten).length
    have : (nniTlv 27 0 ++ [] ++ (([] : List Raw).map Raw.wire).flatten).length = 3 := by decide
    omega⟩
  sigValue := ⟨_, rfl, binaryBlock_wf (by decide) (by decide) (by decide), rfl⟩
  size := by
    intro w hw
    have : (sampleData.encode.map List.length) = some 28 := by decide
    rw [hw] at this
    simp at this; omega

example : DataWF sampleData := sampleData_wf

/-! ### C24: Data caches -/

/-- Full claim: after any calls, if `wireEncode()` returns then the result decodes to the current
field values, and if `getFullName()` returns then it is the name and the digest of that encoding. -/
def C24_claim : Prop :=
  ∀ (H : Bytes → Bytes) (n : List Comp) (ops : List DOp),
    let d := ops.foldl (fun d op => (d.step H op).2) (DObj.init n)
    ∀ w, d.wireEncode.2 = some w →
      ∃ b, b.wire = w ∧ RawWF b ∧ dataDecode b = some d.wireEncode.1.f

/-- The claim fails: with a SignatureInfo but no signature value the first `wireEncode()` throws,
and the second returns the malformed octets. -/
theorem C24_stale_counterexample : ¬ C24_claim := by
  intro h
  obtain ⟨b, h1, h2, h3⟩ := h (fun _ => []) [] [.setSignatureInfo ⟨some 0, none, []⟩, .wireEncode]
    [6, 11, 7, 0, 20, 0, 22, 3, 27, 1, 0, 0, 0] (by decide)
  have hb : fromBuffer b.wire = some (b, []) := by
    rw [fromBuffer_iff]; exact ⟨by simp, h2⟩
  rw [h1] at hb
  have hc : fromBuffer [6, 11, 7, 0, 20, 0, 22, 3, 27, 1, 0, 0, 0] =
      some (⟨6, [6, 11, 7, 0, 20, 0, 22, 3, 27, 1, 0, 0, 0], [7, 0, 20, 0, 22, 3, 27, 1, 0, 0, 0]⟩, []) := by decide
  rw [hc] at hb
  simp only [Option.some.injEq, Prod.mk.injEq, and_true] at hb
  subst hb
  revert h3; decide

/-- Histories in which encoding and decoding calls are given well-formed elements and either return
normally or, for `wireEncode`, throw because the Data has no SignatureInfo. -/
inductive DReach (H : Bytes → Bytes) : DObj → Prop
  | init (n : List Comp) : DReach H (DObj.init n)
  | step {d : DObj} {op : DOp} : DReach H d →
      (op = .wireEncode → (d.step H op).1 = true ∨ d.f.sigInfo.type = none) →
      (∀ b, op = .wireDecode b → RawWF b ∧ (d.step H op).1 = true) →
      DReach H (d.step H op).2

theorem DObj.wireDecode_fields {d d' : DObj} {b : Raw} (h : d.wireDecode b = (true, d')) :
    dataDecode b = some d'.f ∧ d'.wire = some b.wire ∧ d'.full = [] := by
  obtain ⟨h1, es, f, h2, h3, rfl⟩ := (DObj.wireDecode_iff _ _ _).mp h
  exact ⟨(dataDecode_iff _ _).mpr ⟨h1, es, h2, h3⟩, rfl, rfl⟩

/-- What the caches mean. -/
def DInv (H : Bytes → Bytes) (d : DObj) : Prop :=
  (∀ w, d.wire = some w → ∃ b, b.wire = w ∧ RawWF b ∧ dataDecode b = some d.f) ∧
  (d.full ≠ [] → ∃ w, d.wire = some w ∧ d.full = d.f.name ++ [⟨1, H w⟩])

theorem DInv.wireEncode {H : Bytes → Bytes} {d : DObj} (h : DInv H d)
    (hok : d.wireEncode.2.isSome = true ∨ d.f.sigInfo.type = none) : DInv H d.wireEncode.1 ∧
    ∀ w, d.wireEncode.2 = some w → d.wireEncode.1.wire = some w := by
  unfold DObj.wireEncode at hok ⊢
  cases hw : d.wire with
  | some w => simp only; exact ⟨h, by intro w' h'; simp at h'; rw [← h', hw]⟩
  | none =>
    simp only [hw] at hok ⊢
    cases he : d.f.encode with
    | none => simp only; exact ⟨h, by simp⟩
    | some w =>
      simp only [he] at hok ⊢
      have hst : ¬ d.f.sigInfo.type = none := by
        intro hs; unfold DFields.encode at he; rw [if_pos hs] at he; simp at he
      cases hf : fromRange w true with
      | none => simp only; exact ⟨h, by simp⟩
      | some b =>
        simp only [hf] at hok ⊢
        by_cases hd : (d.wireDecode b).1 = true
        · have hd' : d.wireDecode b = (true, (d.wireDecode b).2) := by rw [← hd]
          obtain ⟨a1, a2, a3⟩ := DObj.wireDecode_fields hd'
          obtain ⟨f1, f2⟩ := fromRange_iff.mp hf
          refine ⟨⟨?_, ?_⟩, ?_⟩
          · intro w' hw'
            rw [a2] at hw'
            simp only [Option.some.injEq] at hw'
            exact ⟨b, hw', by rw [RawWF, f1]; exact f2, a1⟩
          · intro hfull; exact absurd a3 hfull
          · intro w' hw'
            rw [if_pos hd] at hw'
            simp only [Option.some.injEq] at hw'
            rw [a2, f1, hw']
        · rw [if_neg hd] at hok
          rcases hok with hok | hok
          · simp at hok
          · exact absurd hok hst

theorem DInv.reset {H : Bytes → Bytes} (f : DFields) : DInv H (DObj.reset f) := by
  constructor
  · intro w hw; simp [DObj.reset] at hw
  · intro h; simp [DObj.reset] at h

theorem DInv.getFullName {H : Bytes → Bytes} {d : DObj} (h : DInv H d) :
    DInv H (d.getFullName H).1 ∧ (d.getFullName H).1.f = d.f ∧ (d.getFullName H).1.wire = d.wire ∧
    ∀ n, (d.getFullName H).2 = some n → ∃ w, d.wire = some w ∧ n = d.f.name ++ [⟨1, H w⟩] := by
  unfold DObj.getFullName
  by_cases hf : d.full = []
  · rw [if_pos hf]
    cases hw : d.wire with
    | none => exact ⟨h, rfl, hw, by simp⟩
    | some w =>
      refine ⟨⟨?_, ?_⟩, rfl, rfl, ?_⟩
      · intro w' hw'; exact h.1 w' (by rw [hw]; exact hw')
      · intro _; exact ⟨w, rfl, rfl⟩
      · intro n hn; simp only [Option.some.injEq] at hn; exact ⟨w, rfl, hn.symm⟩
  · rw [if_neg hf]
    refine ⟨h, rfl, rfl, ?_⟩
    intro n hn
    simp only [Option.some.injEq] at hn
    obtain ⟨w, h1, h2⟩ := h.2 hf
    exact ⟨w, h1, by rw [← hn, h2]⟩

theorem DReach.inv {H : Bytes → Bytes} {d : DObj} (hr : DReach H d) : DInv H d := by
  induction hr with
  | init n => constructor <;> simp [DObj.init]
  | @step d op _ h1 h2 ih =>
    cases op with
    | setName n =>
      simp only [DObj.step]
      by_cases h : n ≠ d.f.name
      · rw [if_pos h]; exact DInv.reset _
      · rw [if_neg h]; exact ih
    | setMetaInfo m => exact DInv.reset _
    | setContent v => exact DInv.reset _
    | setContentBlock b => exact DInv.reset _
    | unsetContent =>
      simp only [DObj.step]
      by_cases h : d.f.content.isSome = true
      · rw [if_pos h]; exact DInv.reset _
      · rw [if_neg h]; exact ih
    | setSignatureInfo s => exact DInv.reset _
    | setSignatureValue v => exact DInv.reset _
    | setContentType t =>
      simp only [DObj.step]
      by_cases h : t ≠ d.f.minfo.type
      · rw [if_pos h]; exact DInv.reset _
      · rw [if_neg h]; exact ih
    | setFreshness ms =>
      simp only [DObj.step]
      by_cases h : ms ≠ d.f.minfo.getFreshness
      · rw [if_pos h]
        by_cases h' : ms < 0
        · rw [if_pos h']; exact ih
        · rw [if_neg h']; exact DInv.reset _
      · rw [if_neg h]; exact ih
    | setFinalBlock c =>
      simp only [DObj.step]
      by_cases h : c ≠ d.f.minfo.finalBlock
      · rw [if_pos h]; exact DInv.reset _
      · rw [if_neg h]; exact ih
    | wireEncode => exact (ih.wireEncode (h1 rfl)).1
    | getFullName => exact ih.getFullName.1
    | wireDecode b =>
      obtain ⟨hb, hok⟩ := h2 b rfl
      have hd : d.wireDecode b = (true, (d.wireDecode b).2) := by
        simp only [DObj.step] at hok; rw [← hok]
      obtain ⟨a1, a2, a3⟩ := DObj.wireDecode_fields hd
      simp only [DObj.step]
      constructor
      · intro w hw
        rw [a2] at hw
        simp only [Option.some.injEq] at hw
        exact ⟨b, hw, hb, a1⟩
      · intro h; exact absurd a3 h

/-- After any such history: if `wireEncode()` returns `w`, then `w` decodes to the field values the
object then has, and a following `getFullName()` returns its name and the digest of `w`; and a
`getFullName()` made directly returns the name and the digest of an encoding of the field values.
Missing from the full property: histories in which an encode or decode call threw after storing its
octets (`C24_stale_counterexample`). -/
theorem C24_coherent_partial (H : Bytes → Bytes) {d : DObj} (hr : DReach H d) :
    (∀ w, d.wireEncode.2 = some w →
      (∃ b, b.wire = w ∧ RawWF b ∧ dataDecode b = some d.wireEncode.1.f) ∧
      (d.wireEncode.1.getFullName H).2 = some (d.wireEncode.1.f.name ++ [⟨1, H w⟩])) ∧
    (∀ n, (d.getFullName H).2 = some n →
      ∃ b, RawWF b ∧ dataDecode b = some d.f ∧ n = d.f.name ++ [⟨1, H b.wire⟩]) := by
  have inv := hr.inv
  constructor
  · intro w hw
    obtain ⟨i1, i2⟩ := inv.wireEncode (Or.inl (by rw [hw]; rfl))
    have i3 := i2 w hw
    refine ⟨i1.1 w i3, ?_⟩
    unfold DObj.getFullName
    by_cases hf : d.wireEncode.1.full = []
    · rw [if_pos hf, i3]
    · rw [if_neg hf]
      obtain ⟨w', h1, h2⟩ := i1.2 hf
      rw [i3] at h1
      simp only [Option.some.injEq] at h1
      simp only [h2, h1]
  · intro n hn
    obtain ⟨w, h1, h2⟩ := (inv.getFullName).2.2.2 n hn
    obtain ⟨b, h3, h4, h5⟩ := inv.1 w h1
    exact ⟨b, h4, h5, by rw [h2, h3]⟩

example (H : Bytes → Bytes) : ∃ d, DReach H d ∧ d.f = sampleData ∧ d.wire.isSome = true ∧ d.full ≠ [] := by
  obtain ⟨h1, h2, h3⟩ := DFields.elems_ok sampleData_wf rfl
  have hd := (DObj.wireDecode_iff (DObj.init []) ⟨sampleData, some (binaryBlock 6
    (((sampleData.elems (binaryBlock 23 [9])).map Raw.wire).flatten)).wire, []⟩ (binaryBlock 6
    (((sampleData.elems (binaryBlock 23 [9])).map Raw.wire).flatten))).mpr ⟨rfl, _, _, h2, h3, rfl⟩
  have r0 := DReach.init (H := H) []
  have r1 := DReach.step (op := .wireDecode (binaryBlock 6
    (((sampleData.elems (binaryBlock 23 [9])).map Raw.wire).flatten))) r0 (by simp) (by
      intro b hb
      simp only [DOp.wireDecode.injEq] at hb; subst hb
      exact ⟨binaryBlock_wf (by decide) (by decide) h1, by simp only [DObj.step]; rw [hd]⟩)
  have r2 := DReach.step (op := .getFullName) r1 (by simp) (by simp)
  refine ⟨_, r2, ?_⟩
  simp only [DObj.step, hd, DObj.getFullName]
  simp

/-- Encoding does not change the field values: for a Data whose fields are well formed and which has
no cached encoding, `wireEncode()` returns the encoding of the fields and keeps them. -/
theorem C24_encode_keeps_fields (d : DObj) (hw : d.wire = none) (h : DataWF d.f) :
    ∃ w, d.f.encode = some w ∧ d.wireEncode = (⟨d.f, some w, []⟩, some w) := by
  obtain ⟨sv, hsv, _⟩ := h.sigValue
  obtain ⟨h1, h2, h3⟩ := DFields.elems_ok h hsv
  refine ⟨_, DFields.encode_eq h hsv, ?_⟩
  unfold DObj.wireEncode
  rw [hw, DFields.encode_eq h hsv]
  simp only
  rw [fromRange_tlvBytes (by decide) (by decide) h1]
  simp only
  have : d.wireDecode (binaryBlock 6 (((d.f.elems sv).map Raw.wire).flatten)) =
      (true, ⟨d.f, some (binaryBlock 6 (((d.f.elems sv).map Raw.wire).flatten)).wire, []⟩) :=
    (DObj.wireDecode_iff _ _ _).mpr ⟨rfl, _, d.f, h2, h3, rfl⟩
  rw [this]
  simp [binaryBlock]

/-! ### C25 (Data part): unknown elements -/

/-- Exactly which Data encodings are accepted, and the resulting fields. -/
theorem C25_data_exact (b : Raw) (f : DFields) :
    dataDecode b = some f ↔ b.type = 6 ∧ ∃ es, ReadsAs b.value es ∧ DataGrammar es f :=
  dataDecode_iff b f

theorem readsAs_mem {v : Bytes} {es : List Raw} (h : ReadsAs v es) : ∀ e ∈ es, RawWF e := h.2

theorem readsAs_unique {v : Bytes} {es es' : List Raw} (h : ReadsAs v es) (h' : ReadsAs v es') : es = es' := by
  have a := parseElements_iff.mpr h
  have b := parseElements_iff.mpr h'
  rw [a] at b; simpa using b

/-- An unrecognised non-critical element inserted anywhere after the name changes nothing. -/
theorem C25_data_insert (b b' : Raw) (pre post : List Raw) (x : Raw) (f : DFields) (hpre : pre ≠ [])
    (hb : ReadsAs b.value (pre ++ post)) (hx : RawWF x) (h31 : x.type > 31) (heven : x.type % 2 = 0)
    (ht : b'.type = b.type) (hb' : b'.value = ((pre ++ x :: post).map Raw.wire).flatten)
    (h : dataDecode b = some f) : dataDecode b' = some f := by
  rw [dataDecode_iff] at h ⊢
  obtain ⟨h6, es, hr, n, rest, mi, ct, si, sv, g0, g1, g2, g3, g4, g⟩ := h
  have := readsAs_unique hr hb
  subst this
  cases pre with
  | nil => exact absurd rfl hpre
  | cons p pre =>
    simp only [List.cons_append, List.cons.injEq] at g0
    obtain ⟨rfl, rfl⟩ := g0
    have hno : ¬ (x.type = 20 ∨ x.type = 21 ∨ x.type = 22 ∨ x.type = 23) := by omega
    refine ⟨by rw [ht, h6], (p :: pre) ++ x :: post, ?_, p, pre ++ x :: post, mi, ct, si, sv, rfl, g1, g2, ?_, ?_, g⟩
    · rw [hb']
      refine readsAs_of ?_
      intro e he
      have hm := readsAs_mem hb
      simp only [List.mem_append, List.mem_cons] at he
      rcases he with (he | he) | he | he
      · exact hm e (by simp [he])
      · exact hm e (by simp [he])
      · rw [he]; exact hx
      · exact hm e (by simp [he])
    · intro e he
      simp only [List.mem_append, List.mem_cons] at he
      rcases he with he | he | he
      · exact g3 e (by simp [he])
      · rw [he]; exact Or.inr (Or.inr (Or.inr (Or.inr ⟨h31, heven⟩)))
      · exact g3 e (by simp [he])
    · rw [List.filter_append, List.filter_cons_of_neg (by simpa using hno), ← List.filter_append]
      exact g4

/-- An unrecognised critical element anywhere after the first element makes decoding fail. -/
theorem C25_data_critical (b : Raw) (n : Raw) (rest : List Raw) (x : Raw) (hb : ReadsAs b.value (n :: rest))
    (hx : x ∈ rest) (hun : x.type ≠ 20 ∧ x.type ≠ 21 ∧ x.type ≠ 22 ∧ x.type ≠ 23)
    (hcrit : x.type ≤ 31 ∨ x.type % 2 = 1) : dataDecode b = none := by
  cases hd : dataDecode b with
  | none => rfl
  | some f =>
    exfalso
    rw [dataDecode_iff] at hd
    obtain ⟨_, es, hr, n', rest', _, _, _, _, g0, _, _, g3, _⟩ := hd
    have := readsAs_unique hr hb
    rw [this] at g0
    simp only [List.cons.injEq] at g0
    obtain ⟨rfl, rfl⟩ := g0
    rcases g3 x hx with h | h | h | h | ⟨h, h'⟩ <;> omega

/-- Recognised elements out of order or repeated make decoding fail. -/
theorem C25_data_order (b : Raw) (n : Raw) (l1 l2 l3 : List Raw) (x y : Raw)
    (hb : ReadsAs b.value (n :: (l1 ++ x :: l2 ++ y :: l3)))
    (hx : 20 ≤ x.type ∧ x.type ≤ 23) (hy : 20 ≤ y.type ∧ y.type ≤ 23) (hle : y.type ≤ x.type) :
    dataDecode b = none := by
  cases hd : dataDecode b with
  | none => rfl
  | some f =>
    exfalso
    rw [dataDecode_iff] at hd
    obtain ⟨_, es, hr, n', rest', mi, ct, si, sv, g0, _, _, _, g4, g5, g6, g7, g8, _⟩ := hd
    have := readsAs_unique hr hb
    rw [this] at g0
    simp only [List.cons.injEq] at g0
    obtain ⟨rfl, rfl⟩ := g0
    have hpw : List.Pairwise (fun a b : Raw => a.type < b.type) (mi.toList ++ ct.toList ++ [si, sv]) := by
      have hm : ∀ e ∈ mi.toList, e.type = 20 := by simpa using g5
      have hc : ∀ e ∈ ct.toList, e.type = 21 := by simpa using g6
      rw [List.pairwise_append, List.pairwise_append]
      refine ⟨⟨by cases mi <;> simp, by cases ct <;> simp, ?_⟩, by simp [g7, g8], ?_⟩
      · intro a ha c hc'; rw [hm a ha, hc c hc']; decide
      · intro a ha c hc'
        have hcc : c.type = 22 ∨ c.type = 23 := by
          simp only [List.mem_cons, List.not_mem_nil, or_false] at hc'
          rcases hc' with rfl | rfl <;> omega
        rcases List.mem_append.mp ha with ha | ha
        · rw [hm a ha]; omega
        · rw [hc a ha]; omega
    rw [← g4] at hpw
    rw [List.filter_append, List.filter_append, List.filter_cons_of_pos (by simp; omega),
      List.filter_cons_of_pos (by simp; omega), List.pairwise_append] at hpw
    have := hpw.2.2 x (by simp) y (by simp)
    omega

/-- Concrete packets: an accepted one; the same with element 32 inserted; with
critical element 33 inserted; with two Content elements. -/
example :
    dataDecode ⟨6, [], [7, 0, 21, 1, 5, 22, 3, 27, 1, 0, 23, 0]⟩ =
      some ⟨[], MetaInfo.init, some ⟨21, [21, 1, 5], [5]⟩, ⟨some 0, none, []⟩, some ⟨23, [23, 0], []⟩⟩ ∧
    dataDecode ⟨6, [], [7, 0, 21, 1, 5, 32, 1, 1, 22, 3, 27, 1, 0, 23, 0]⟩ =
      some ⟨[], MetaInfo.init, some ⟨21, [21, 1, 5], [5]⟩, ⟨some 0, none, []⟩, some ⟨23, [23, 0], []⟩⟩ ∧
    dataDecode ⟨6, [], [7, 0, 21, 1, 5, 33, 1, 1, 22, 3, 27, 1, 0, 23, 0]⟩ = none ∧
    dataDecode ⟨6, [], [7, 0, 21, 1, 5, 21, 1, 5, 22, 3, 27, 1, 0, 23, 0]⟩ = none := by
  decide

/-! ### C26: the signed portion -/

theorem takeWhile_of {pre post : List Raw} {sv : Raw} (h : ∀ e ∈ pre, e.type ≠ 23) (hs : sv.type = 23) :
    (pre ++ sv :: post).takeWhile (fun e => e.type ≠ 23) = pre := by
  induction pre with
  | nil => simp [hs]
  | cons p pre ih =>
    rw [List.cons_append, List.takeWhile_cons_of_pos (by simpa using h p (by simp)),
      ih (fun e he => h e (by simp [he]))]

theorem filter_split {P : Raw → Bool} {l as : List Raw} {sv : Raw} (h : l.filter P = as ++ [sv])  :
    ∃ pre post, l = pre ++ sv :: post ∧ pre.filter P = as ∧ post.filter P = [] := by
  induction l generalizing as with
  | nil => simp at h
  | cons x l ih =>
    by_cases hx : P x = true
    · rw [List.filter_cons_of_pos hx] at h
      cases as with
      | nil =>
        simp only [List.nil_append, List.cons.injEq] at h
        exact ⟨[], l, by rw [h.1]; rfl, rfl, h.2⟩
      | cons a as =>
        simp only [List.cons_append, List.cons.injEq] at h
        obtain ⟨pre, post, h1, h2, h3⟩ := ih h.2
        exact ⟨x :: pre, post, by rw [h1]; rfl, by rw [List.filter_cons_of_pos hx, h2, h.1], h3⟩
    · rw [List.filter_cons_of_neg hx] at h
      obtain ⟨pre, post, h1, h2, h3⟩ := ih h
      exact ⟨x :: pre, post, by rw [h1]; rfl, by rw [List.filter_cons_of_neg hx, h2], h3⟩

/-- The structure of an accepted Data around its SignatureValue. -/
theorem data_split {es : List Raw} {f : DFields} (g : DataGrammar es f) :
    ∃ n pre post mi ct si sv, es = n :: (pre ++ sv :: post) ∧ n.type = 7 ∧ sv.type = 23 ∧
      (∀ e ∈ n :: pre, e.type ≠ 23) ∧ (∀ e ∈ post, Ignorable e) ∧
      pre.filter knownD = Option.toList mi ++ Option.toList ct ++ [si] ∧
      (∀ e ∈ mi, e.type = 20) ∧ (∀ e ∈ ct, e.type = 21) ∧ si.type = 22 ∧
      (∃ cs, ReadsAs n.value cs ∧ f.name = rawComps cs) ∧
      (match mi with
        | none => f.minfo = MetaInfo.init
        | some e => MetaInfo.init.wireDecode e = (true, f.minfo)) ∧
      f.content = ct ∧ SigInfo.wireDecode si 22 = (true, f.sigInfo) ∧ f.sigValue = some sv := by
  obtain ⟨n, rest, mi, ct, si, sv, g0, g1, g2, g3, g4, g5, g6, g7, g8, g9, g10, g11, g12⟩ := g
  have g4' : rest.filter knownD = (mi.toList ++ ct.toList ++ [si]) ++ [sv] := by
    have : (fun e : Raw => decide (e.type = 20 ∨ e.type = 21 ∨ e.type = 22 ∨ e.type = 23)) = knownD := rfl
    rw [← this, g4]; simp
  obtain ⟨pre, post, h1, h2, h3⟩ := filter_split g4'
  refine ⟨n, pre, post, mi, ct, si, sv, by rw [g0, h1], g1, g8, ?_, ?_, h2, g5, g6, g7, g2, ?_, g10, ?_, g12⟩
  · intro e he
    rcases List.mem_cons.mp he with rfl | he
    · omega
    · intro h23
      have : e ∈ pre.filter knownD := List.mem_filter.mpr ⟨he, by rw [knownD_iff]; omega⟩
      rw [h2] at this
      simp only [List.mem_append, Option.mem_toList, List.mem_singleton] at this
      rcases this with (h | h) | h
      · have := g5 e h; omega
      · have := g6 e h; omega
      · rw [h] at h23; omega
  · intro e he
    have hk : ¬ knownD e = true := List.filter_eq_nil_iff.mp h3 e he
    rw [knownD_iff] at hk
    rcases g3 e (by rw [h1]; simp [he]) with h | h | h | h | h
    · omega
    · omega
    · omega
    · omega
    · exact h
  · cases mi with
    | none => exact g9
    | some e => exact (metaDecode_iff _ _).mpr g9
  · exact (sigDecode_iff _ _ _).mpr ⟨g7, g11⟩

/-- For every accepted Data, the signed range starts at the beginning of the Name and ends just before
the SignatureValue; after the SignatureValue there are only ignorable elements, and the fields come
from inside the range. -/
theorem C26_covers (b : Raw) (f : DFields) (es : List Raw) (h : dataDecode b = some f) (hr : ReadsAs b.value es) :
    ∃ (signed : Bytes) (sv : Raw) (post : List Raw), signedRange es = some signed ∧ f.sigValue = some sv ∧ sv.type = 23 ∧
      b.value = signed ++ sv.wire ++ (post.map Raw.wire).flatten ∧ (∀ e ∈ post, Ignorable e) ∧
      ∃ n rest, ReadsAs signed (n :: rest) ∧ n.type = 7 ∧ (∃ e ∈ rest, e.type = 22) ∧
        (∀ e ∈ rest, e.type ≠ 23) ∧ (∀ c, f.content = some c → c ∈ rest) := by
  rw [dataDecode_iff] at h
  obtain ⟨_, es', hr', g⟩ := h
  have := readsAs_unique hr' hr; subst this
  obtain ⟨n, pre, post, mi, ct, si, sv, h1, h2, h3, h4, h5, h6, h7, h8, h9, h10, h11, h12, h13, h14⟩ := data_split g
  have htw : es'.takeWhile (fun e => e.type ≠ 23) = n :: pre := by
    rw [h1, ← List.cons_append]
    exact takeWhile_of h4 h3
  have hmem : ∀ e ∈ Option.toList mi ++ Option.toList ct ++ [si], e ∈ pre := by
    intro e he; rw [← h6] at he; exact (List.mem_filter.mp he).1
  refine ⟨((n :: pre).map Raw.wire).flatten, sv, post, ?_, h14, h3, ?_, h5, n, pre, ?_, h2, ?_, ?_, ?_⟩
  · unfold signedRange
    simp only
    rw [htw, if_neg (by simp)]
  · rw [hr.1, h1]; simp
  · refine readsAs_of ?_
    intro e he
    refine hr.2 e ?_
    rw [h1]
    rcases List.mem_cons.mp he with rfl | he
    · simp
    · simp [he]
  · exact ⟨si, hmem si (by simp), h9⟩
  · intro e he; exact h4 e (by simp [he])
  · intro c hc
    rw [h12] at hc
    exact hmem c (by simp [hc])

theorem toList_split {mi mi' ct ct' : Option Raw} {si si' : Raw}
    (h : mi.toList ++ ct.toList ++ [si] = mi'.toList ++ ct'.toList ++ [si'])
    (h1 : ∀ e ∈ mi, e.type = 20) (h1' : ∀ e ∈ mi', e.type = 20)
    (h2 : ∀ e ∈ ct, e.type = 21) (h2' : ∀ e ∈ ct', e.type = 21) (h3 : si.type = 22) (h3' : si'.type = 22) :
    mi = mi' ∧ ct = ct' ∧ si = si' := by
  cases mi with
  | none =>
    cases mi' with
    | none =>
      cases ct with
      | none =>
        cases ct' with
        | none => simpa using h
        | some c =>
          simp at h
      | some c =>
        cases ct' with
        | none => simp at h
        | some c' => simpa using h
    | some m =>
      have := h1' m rfl
      cases ct with
      | none => cases ct' <;> simp at h
      | some c =>
        have := h2 c rfl
        cases ct' with
        | none =>
          simp at h; rw [h.1] at this; omega
        | some c' => simp at h
  | some m =>
    have := h1 m rfl
    cases mi' with
    | none =>
      cases ct' with
      | none => cases ct <;> simp at h
      | some c =>
        have := h2' c rfl
        cases ct with
        | none => simp at h; rw [← h.1] at this; omega
        | some c' => simp at h
    | some m' =>
      cases ct with
      | none =>
        cases ct' with
        | none => simpa using h
        | some c => simp at h
      | some c =>
        cases ct' with
        | none => simp at h
        | some c' => simpa using h

/-- Two accepted Data with equal signed octets have equal name, MetaInfo, content and SignatureInfo. -/
theorem C26_injective (b b' : Raw) (f f' : DFields) (es es' : List Raw) (signed : Bytes)
    (h : dataDecode b = some f) (hr : ReadsAs b.value es) (hs : signedRange es = some signed)
    (h' : dataDecode b' = some f') (hr' : ReadsAs b'.value es') (hs' : signedRange es' = some signed) :
    f.name = f'.name ∧ f.minfo = f'.minfo ∧ f.content = f'.content ∧ f.sigInfo = f'.sigInfo := by
  have sp : ∀ (b : Raw) (f : DFields) (es : List Raw), dataDecode b = some f → ReadsAs b.value es →
      signedRange es = some signed → ∃ n pre mi ct si, ReadsAs signed (n :: pre) ∧
      pre.filter knownD = Option.toList mi ++ Option.toList ct ++ [si] ∧
      (∀ e ∈ mi, e.type = 20) ∧ (∀ e ∈ ct, e.type = 21) ∧ si.type = 22 ∧
      (∃ cs, ReadsAs n.value cs ∧ f.name = rawComps cs) ∧
      (match mi with
        | none => f.minfo = MetaInfo.init
        | some e => MetaInfo.init.wireDecode e = (true, f.minfo)) ∧
      f.content = ct ∧ SigInfo.wireDecode si 22 = (true, f.sigInfo) := by
    intro b f es h hr hs
    rw [dataDecode_iff] at h
    obtain ⟨_, es', hr', g⟩ := h
    have := readsAs_unique hr' hr; subst this
    obtain ⟨n, pre, post, mi, ct, si, sv, h1, h2, h3, h4, h5, h6, h7, h8, h9, h10, h11, h12, h13, h14⟩ := data_split g
    have htw : es'.takeWhile (fun e => e.type ≠ 23) = n :: pre := by
      rw [h1, ← List.cons_append]
      exact takeWhile_of h4 h3
    unfold signedRange at hs
    simp only at hs
    rw [htw, if_neg (by simp)] at hs
    simp only [Option.some.injEq] at hs
    refine ⟨n, pre, mi, ct, si, ?_, h6, h7, h8, h9, h10, h11, h12, h13⟩
    rw [← hs]
    refine readsAs_of ?_
    intro e he
    refine hr.2 e ?_
    rw [h1]
    rcases List.mem_cons.mp he with rfl | he
    · simp
    · simp [he]
  obtain ⟨n, pre, mi, ct, si, a1, a2, a3, a4, a5, ⟨cs, a6, a6'⟩, a7, a8, a9⟩ := sp b f es h hr hs
  obtain ⟨n', pre', mi', ct', si', b1, b2, b3, b4, b5, ⟨cs', b6, b6'⟩, b7, b8, b9⟩ := sp b' f' es' h' hr' hs'
  have e := readsAs_unique a1 b1
  simp only [List.cons.injEq] at e
  obtain ⟨rfl, rfl⟩ := e
  rw [a2] at b2
  obtain ⟨rfl, rfl, rfl⟩ := toList_split b2 a3 b3 a4 b4 a5 b5
  refine ⟨?_, ?_, by rw [a8, b8], ?_⟩
  · rw [a6', b6', readsAs_unique a6 b6]
  · cases mi with
    | none => simp only at a7 b7; rw [a7, b7]
    | some m => simp only at a7 b7; rw [a7] at b7; simpa using b7
  · rw [a9] at b9; simpa using b9

/-- Signing: the octets given to the signer are the signed range of the resulting packet. -/
theorem C26_signing (f : DFields) (sig : Bytes) (h : DataWF { f with sigValue := some (binaryBlock 23 sig) })
    (u : Bytes) (hu : f.encodeUnsigned = some u) (d : DObj) :
    ∃ d' w b es, d.finish u sig = (d', some w) ∧ d'.f = { f with sigValue := some (binaryBlock 23 sig) } ∧
      fromBuffer w = some (b, []) ∧ ReadsAs b.value es ∧ signedRange es = some u := by
  obtain ⟨h1, h2, h3⟩ := DFields.elems_ok h rfl
  have hu' : f.encodeUnsigned = { f with sigValue := some (binaryBlock 23 sig) : DFields }.encodeUnsigned := rfl
  rw [hu', DFields.encodeUnsigned_eq h] at hu
  simp only [Option.some.injEq] at hu
  have hw : u ++ tlvBytes 23 sig = (((DFields.elems { f with sigValue := some (binaryBlock 23 sig) } (binaryBlock 23 sig)).map Raw.wire).flatten) := by
    rw [← hu]; simp [DFields.elems, binaryBlock]
  unfold DObj.finish
  simp only
  rw [hw, fromRange_tlvBytes (by decide) (by decide) h1]
  simp only
  have hd : d.wireDecode (binaryBlock 6 (((DFields.elems { f with sigValue := some (binaryBlock 23 sig) } (binaryBlock 23 sig)).map Raw.wire).flatten)) =
      (true, ⟨{ f with sigValue := some (binaryBlock 23 sig) }, some (binaryBlock 6 (((DFields.elems { f with sigValue := some (binaryBlock 23 sig) } (binaryBlock 23 sig)).map Raw.wire).flatten)).wire, []⟩) :=
    (DObj.wireDecode_iff _ _ _).mpr ⟨rfl, _, _, h2, h3, rfl⟩
  rw [hd]
  refine ⟨_, _, _, _, rfl, rfl, fromBuffer_tlvBytes (by decide) (by decide) h1, h2, ?_⟩
  have hct : ∀ e ∈ f.content, e.type = 21 := fun e he => (h.content e he).2
  have htw : (DFields.elems { f with sigValue := some (binaryBlock 23 sig) } (binaryBlock 23 sig)).takeWhile
      (fun e => e.type ≠ 23) = [nameRaw f.name, binaryBlock 20 ((f.minfo.elems.map Raw.wire).flatten)] ++
        f.content.toList ++ [binaryBlock 22 ((f.sigInfo.elems.map Raw.wire).flatten)] := by
    have := takeWhile_of (sv := binaryBlock 23 sig) (post := [])
      (pre := [nameRaw f.name, binaryBlock 20 ((f.minfo.elems.map Raw.wire).flatten)] ++
        f.content.toList ++ [binaryBlock 22 ((f.sigInfo.elems.map Raw.wire).flatten)]) (by
          intro e he
          simp only [List.mem_append, List.mem_cons, List.not_mem_nil, or_false, Option.mem_toList] at he
          rcases he with (he | he) | he
          · rcases he with rfl | rfl <;> simp [nameRaw, binaryBlock]
          · have := hct e he; omega
          · rw [he]; simp [binaryBlock]) rfl
    rw [← this]
    simp [DFields.elems]
  unfold signedRange
  simp only
  rw [htw, if_neg (by simp), ← hu]
  simp

example : ∃ (f : DFields) (u : Bytes), DataWF { f with sigValue := some (binaryBlock 23 [9]) } ∧ f.encodeUnsigned = some u :=
  ⟨sampleData, _, sampleData_wf, DFields.encodeUnsigned_eq sampleData_wf⟩

/-! ### C27: full names -/

/-- Data (after any history as in C24) with equal full names have equal names, and unless the digest
function collides on their encodings they have equal encodings and equal fields. -/
theorem C27_identify (H : Bytes → Bytes) {d1 d2 : DObj} (hr1 : DReach H d1) (hr2 : DReach H d2)
    {n : List Comp} (h1 : (d1.getFullName H).2 = some n) (h2 : (d2.getFullName H).2 = some n) :
    ∃ w1 w2, d1.wireEncode.2 = some w1 ∧ d2.wireEncode.2 = some w2 ∧ d1.f.name = d2.f.name ∧
      ((H w1 = H w2 → w1 = w2) → w1 = w2 ∧ d1.f = d2.f) := by
  obtain ⟨w1, a1, a2⟩ := (hr1.inv.getFullName).2.2.2 n h1
  obtain ⟨w2, b1, b2⟩ := (hr2.inv.getFullName).2.2.2 n h2
  rw [a2] at b2
  have hl := List.append_inj' b2 (by simp)
  have hh : H w1 = H w2 := by simpa using hl.2
  refine ⟨w1, w2, ?_, ?_, hl.1, ?_⟩
  · unfold DObj.wireEncode; rw [a1]
  · unfold DObj.wireEncode; rw [b1]
  · intro inj
    have hw : w1 = w2 := inj hh
    subst hw
    refine ⟨rfl, ?_⟩
    obtain ⟨b, c1, c2, c3⟩ := hr1.inv.1 w1 a1
    obtain ⟨b', e1, e2, e3⟩ := hr2.inv.1 w1 b1
    have hb : b = b' := by
      have x1 : fromBuffer w1 = some (b, []) := by
        rw [fromBuffer_iff]; rw [← c1]; exact ⟨by simp, c2⟩
      have x2 : fromBuffer w1 = some (b', []) := by
        rw [fromBuffer_iff]; rw [← e1]; exact ⟨by simp, e2⟩
      rw [x1] at x2; simpa using x2
    rw [hb, e3] at c3
    simpa using c3.symm

/-- A reachable Data that has a full name. -/
example (H : Bytes → Bytes) : ∃ d n, DReach H d ∧ (d.getFullName H).2 = some n := by
  obtain ⟨h1, h2, h3⟩ := DFields.elems_ok sampleData_wf rfl
  have hd := (DObj.wireDecode_iff (DObj.init []) ⟨sampleData, some (binaryBlock 6
    (((sampleData.elems (binaryBlock 23 [9])).map Raw.wire).flatten)).wire, []⟩ (binaryBlock 6
    (((sampleData.elems (binaryBlock 23 [9])).map Raw.wire).flatten))).mpr ⟨rfl, _, _, h2, h3, rfl⟩
  have r1 := DReach.step (op := .wireDecode (binaryBlock 6
    (((sampleData.elems (binaryBlock 23 [9])).map Raw.wire).flatten))) (DReach.init (H := H) []) (by simp) (by
      intro b hb
      simp only [DOp.wireDecode.injEq] at hb; subst hb
      exact ⟨binaryBlock_wf (by decide) (by decide) h1, by simp only [DObj.step]; rw [hd]⟩)
  refine ⟨_, sampleData.name ++ [⟨1, H (binaryBlock 6
    (((sampleData.elems (binaryBlock 23 [9])).map Raw.wire).flatten)).wire⟩], r1, ?_⟩
  simp only [DObj.step, hd, DObj.getFullName]
  simp

/-- The full name is the name and one ImplicitSha256Digest component of the digest's length. -/
theorem C27_shape (H : Bytes → Bytes) (h32 : ∀ x, (H x).length = 32) {d : DObj} (hr : DReach H d)
    {n : List Comp} (h : (d.getFullName H).2 = some n) :
    ∃ c, n = d.f.name ++ [c] ∧ c.type = 1 ∧ c.value.length = 32 := by
  obtain ⟨w, _, a2⟩ := (hr.inv.getFullName).2.2.2 n h
  exact ⟨_, a2, rfl, h32 w⟩

end Ndn.Packet
