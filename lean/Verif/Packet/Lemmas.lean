import Verif.Packet.Spec
import Verif.Block.Lemmas
import Verif.Name.OrderLemmas
namespace Ndn.Packet
open Tlv Block Block.Spec Name Name.Spec Spec

theorem tlvBytes_eq (t : Nat) (v : Bytes) : tlvBytes t v = tlv t v := rfl

theorem tlvBytes_length (t : Nat) (v : Bytes) :
    (tlvBytes t v).length = (writeVarNumber t).length + (writeVarNumber v.length).length + v.length := by
  simp [tlvBytes]; omega

theorem tlvBytes_ge (t : Nat) (v : Bytes) : v.length ≤ (tlvBytes t v).length := by
  rw [tlvBytes_length]; omega

theorem binaryBlock_wf {t : Nat} {v : Bytes} (h0 : 1 ≤ t) (h1 : t ≤ 2 ^ 32 - 1) (hv : v.length < 2 ^ 64) :
    RawWF (binaryBlock t v) := tlv_form h0 h1 hv

theorem isCritical_iff (t : Nat) : isCriticalType t = true ↔ ¬ (t > 31 ∧ t % 2 = 0) := by
  unfold isCriticalType
  rw [Nat.and_one_is_mod]
  simp only [Bool.or_eq_true, decide_eq_true_eq, beq_iff_eq]
  omega

theorem readNniAs_write {n mx : Nat} (hn : n ≤ mx) (h64 : n < 2 ^ 64) :
    readNniValueAs mx (writeNonNegativeInteger n) = some n := by
  unfold readNniValueAs
  rw [readNniValue_write h64]
  simp only
  rw [if_neg (by omega)]

theorem nni_len_lt (n : Nat) : (writeNonNegativeInteger n).length < 2 ^ 64 := by
  rw [writeNonNegativeInteger_length]; unfold sizeOfNonNegativeInteger
  (repeat' split) <;> omega

/-! ### MetaInfo -/

/-- The elements in the value of an encoded MetaInfo. -/
def MetaInfo.elems (m : MetaInfo) : List Raw :=
  (if m.type ≠ 0 then [binaryBlock 24 (writeNonNegativeInteger m.type)] else []) ++
  ((if m.freshness ≠ 0 then [binaryBlock 25 (writeNonNegativeInteger m.freshness)] else []) ++
  ((match m.finalBlock with | some c => [binaryBlock 26 c.encode] | none => []) ++ m.app))

theorem MetaInfo.encode_eq (m : MetaInfo) : m.encode = tlvBytes 20 ((m.elems.map Raw.wire).flatten) := by
  unfold MetaInfo.encode MetaInfo.elems
  congr 1
  by_cases h1 : m.type = 0 <;> by_cases h2 : m.freshness = 0 <;> cases m.finalBlock <;>
    simp [h1, h2, nniTlv, binaryBlock]

theorem Comp.encode_eq (c : Comp) : c.encode = tlv c.type c.value := rfl

theorem flatten_mem_le {l : List Raw} {e : Raw} (h : e ∈ l) : e.wire.length ≤ (l.map Raw.wire).flatten.length := by
  induction l with
  | nil => simp at h
  | cons a l ih =>
    simp only [List.map_cons, List.flatten_cons, List.length_append]
    rcases List.mem_cons.mp h with rfl | h
    · omega
    · have := ih h; omega

theorem MetaInfo.elems_wf {m : MetaInfo} (h : MetaWF m) : ∀ e ∈ m.elems, RawWF e := by
  intro e he
  unfold MetaInfo.elems at he
  rw [List.mem_append, List.mem_append, List.mem_append] at he
  rcases he with he | he | he | he
  · split at he
    · simp only [List.mem_singleton] at he; subst he
      exact binaryBlock_wf (by decide) (by decide) (nni_len_lt _)
    · simp at he
  · split at he
    · simp only [List.mem_singleton] at he; subst he
      exact binaryBlock_wf (by decide) (by decide) (nni_len_lt _)
    · simp at he
  · split at he
    · rename_i c hc
      simp only [List.mem_singleton] at he; subst he
      refine binaryBlock_wf (by decide) (by decide) ?_
      have hs := h.size
      rw [MetaInfo.encode_eq] at hs
      have h1 := tlvBytes_ge 20 ((m.elems.map Raw.wire).flatten)
      have hm : binaryBlock 26 c.encode ∈ m.elems := by
        unfold MetaInfo.elems
        rw [List.mem_append, List.mem_append, List.mem_append]
        exact Or.inr (Or.inr (Or.inl (by simp [hc])))
      have h2 := flatten_mem_le hm
      have h3 := tlvBytes_ge 26 c.encode
      simp only [binaryBlock] at h2
      omega
    · simp at he
  · exact (h.app e he).1

theorem readsAs_of {es : List Raw} (h : ∀ e ∈ es, RawWF e) : ReadsAs ((es.map Raw.wire).flatten) es :=
  ⟨rfl, h⟩

theorem takeNni_opt {t mx n : Nat} (rest : List Raw) (hr : ∀ e ∈ rest.head?, e.type ≠ t) (hn : n ≤ mx)
    (h64 : n < 2 ^ 64) :
    takeNni t mx ((if n ≠ 0 then [binaryBlock t (writeNonNegativeInteger n)] else []) ++ rest) =
      some (if n ≠ 0 then some n else none, rest) := by
  by_cases h : n = 0
  · simp only [h, ne_eq, not_true_eq_false, if_false, List.nil_append]
    cases rest with
    | nil => rfl
    | cons e es =>
      have : e.type ≠ t := hr e (by simp)
      simp only [takeNni]
      rw [if_neg this]
  · simp only [ne_eq, h, not_false_eq_true, if_true, List.singleton_append]
    simp only [takeNni]
    rw [if_pos (show (binaryBlock t (writeNonNegativeInteger n)).type = t from rfl)]
    rw [show (binaryBlock t (writeNonNegativeInteger n)).value = writeNonNegativeInteger n from rfl,
      readNniAs_write hn h64]

theorem getD_opt (n : Nat) : (if n ≠ 0 then some n else none : Option Nat).getD 0 = n := by
  by_cases h : n = 0 <;> simp [h]

theorem MetaInfo.decode_elems {m m0 : MetaInfo} (h : MetaWF m) (b : Raw)
    (hb : ReadsAs b.value m.elems) : m0.wireDecode b = (true, { m with app := m0.app ++ m.app }) := by
  have happ : ∀ e ∈ m.app.head?, e.type ≠ 24 ∧ e.type ≠ 25 ∧ e.type ≠ 26 := by
    intro e he
    exact (h.app e (List.mem_of_mem_head? he)).2
  have hfb : ∀ e ∈ ((match m.finalBlock with | some c => [binaryBlock 26 c.encode] | none => []) ++ m.app).head?,
      e.type ≠ 24 ∧ e.type ≠ 25 := by
    intro e he
    cases hc : m.finalBlock with
    | none => rw [hc] at he; exact ⟨(happ e (by simpa using he)).1, (happ e (by simpa using he)).2.1⟩
    | some c => rw [hc] at he; simp at he; subst he; exact ⟨by simp [binaryBlock], by simp [binaryBlock]⟩
  unfold MetaInfo.wireDecode
  rw [parseElements_iff.mpr hb]
  unfold MetaInfo.elems
  simp only
  rw [takeNni_opt _ ?_ (by have := h.type; omega) (by have := h.type; omega)]
  · simp only
    rw [takeNni_opt _ ?_ (by have := h.fresh; omega) h.fresh]
    · simp only [getD_opt]
      cases hc : m.finalBlock with
      | none =>
        simp only [List.nil_append]
        cases ha : m.app with
        | nil => simp only; cases m; subst ha; subst hc; simp
        | cons e es =>
          have : e.type ≠ 26 := (happ e (by simp [ha])).2.2
          simp only
          rw [if_neg this]
      | some c =>
        simp only [List.singleton_append]
        rw [if_pos (show (binaryBlock 26 c.encode).type = 26 from rfl)]
        have hv := h.final c hc
        have hlen : c.value.length < 2 ^ 64 := by
          have hw := MetaInfo.elems_wf h (binaryBlock 26 c.encode) (by
            unfold MetaInfo.elems
            rw [List.mem_append, List.mem_append, List.mem_append]
            exact Or.inr (Or.inr (Or.inl (by simp [hc]))))
          have h3 := tlvBytes_ge c.type c.value
          have hs := h.size
          rw [MetaInfo.encode_eq] at hs
          have h1 := tlvBytes_ge 20 ((m.elems.map Raw.wire).flatten)
          have hm : binaryBlock 26 c.encode ∈ m.elems := by
            unfold MetaInfo.elems
            rw [List.mem_append, List.mem_append, List.mem_append]
            exact Or.inr (Or.inr (Or.inl (by simp [hc])))
          have h2 := flatten_mem_le hm
          have h4 := tlvBytes_ge 26 c.encode
          simp only [binaryBlock] at h2
          have h5 : c.value.length ≤ c.encode.length := h3
          omega
        have hbv : blockFromValue (binaryBlock 26 c.encode).value = some ⟨c.type, c.encode, c.value⟩ := by
          unfold blockFromValue
          have hf : TlvForm c.encode c.type c.value := tlv_form hv.1 (by have := hv.2.1; omega) hlen
          have := hf.length_ge
          rw [show (binaryBlock 26 c.encode).value = c.encode from rfl, if_neg (by omega)]
          rw [fromRange_iff]
          exact ⟨rfl, hf⟩
        have hm : mkComp c.type c.value = some c := by
          unfold mkComp; rw [if_pos ((ensureValid_iff _).mpr hv)]
        simp only [hbv, hm]
    · intro e he; exact (hfb e he).2
  · intro e he
    by_cases hf : m.freshness = 0
    · simp only [hf, ne_eq, not_true_eq_false, if_false, List.nil_append] at he
      exact (hfb e he).1
    · simp only [ne_eq, hf, not_false_eq_true, if_true, List.singleton_append, List.head?_cons,
        Option.mem_def, Option.some.injEq] at he
      subst he; simp [binaryBlock]

/-! ### Names -/

/-- The elements in the value of an encoded name. -/
def nameElems (n : List Comp) : List Raw := n.map (fun c => ⟨c.type, c.encode, c.value⟩)

theorem encodeComps_eq (n : List Comp) : encodeComps n = tlvBytes 7 (((nameElems n).map Raw.wire).flatten) := by
  unfold encodeComps tlvBytes nameElems
  simp [List.flatMap_def, Function.comp_def]

theorem rawComps_nameElems (n : List Comp) : rawComps (nameElems n) = n := by
  simp [rawComps, nameElems, Function.comp_def]

theorem nameElems_wf {n : List Comp} (h : NameWF n) (hs : (encodeComps n).length < 2 ^ 64) :
    ∀ e ∈ nameElems n, RawWF e := by
  intro e he
  have h1 := flatten_mem_le he
  obtain ⟨c, hc, rfl⟩ := List.mem_map.mp he
  rw [encodeComps_eq] at hs
  have h2 := tlvBytes_ge 7 (((nameElems n).map Raw.wire).flatten)
  have h3 : c.value.length ≤ c.encode.length := tlvBytes_ge c.type c.value
  simp only at h1
  exact tlv_form (h c hc).1 (h c hc).2 (by omega)

/-- The Name element as encoded. -/
def nameRaw (n : List Comp) : Raw := binaryBlock 7 (((nameElems n).map Raw.wire).flatten)

theorem nameRaw_wire (n : List Comp) : (nameRaw n).wire = encodeComps n := (encodeComps_eq n).symm

theorem nameRaw_wf {n : List Comp} (hs : (encodeComps n).length < 2 ^ 64) : RawWF (nameRaw n) := by
  refine binaryBlock_wf (by decide) (by decide) ?_
  rw [encodeComps_eq] at hs
  have h2 := tlvBytes_ge 7 (((nameElems n).map Raw.wire).flatten)
  omega

theorem nameOf_nameRaw {n : List Comp} (h : NameWF n) (hs : (encodeComps n).length < 2 ^ 64) :
    nameOf (nameRaw n) = some n := by
  unfold nameOf
  rw [if_neg (by simp [nameRaw, binaryBlock])]
  rw [show (nameRaw n).value = ((nameElems n).map Raw.wire).flatten from rfl,
    parseElements_iff.mpr (readsAs_of (nameElems_wf h hs))]
  simp [rawComps_nameElems]

/-! ### KeyLocator -/

/-- The elements in the value of an encoded KeyLocator. -/
def KeyLoc.elems : KeyLoc → List Raw
  | .none => []
  | .name n => [nameRaw n]
  | .digest b => [b]
  | .unknown _ => []

theorem KeyLoc.encode_eq {k : KeyLoc} (h : KeyLocWF k) :
    k.encode = some (tlvBytes 28 ((k.elems.map Raw.wire).flatten)) := by
  cases k <;> simp [KeyLoc.encode, KeyLoc.elems, nameRaw_wire, KeyLocWF] at h ⊢

/-- The KeyLocator element as encoded. -/
def KeyLoc.raw (k : KeyLoc) : Raw := binaryBlock 28 ((k.elems.map Raw.wire).flatten)

theorem KeyLoc.decode_raw {k : KeyLoc} (h : KeyLocWF k) (hs : k.raw.wire.length < 2 ^ 64) :
    RawWF k.raw ∧ KeyLoc.decode k.raw = some k := by
  have hv : ((k.elems.map Raw.wire).flatten).length < 2 ^ 64 := by
    have := tlvBytes_ge 28 ((k.elems.map Raw.wire).flatten)
    have : k.raw.wire.length = (tlvBytes 28 ((k.elems.map Raw.wire).flatten)).length := rfl
    omega
  have hw : ∀ e ∈ k.elems, RawWF e := by
    intro e he
    cases k with
    | none => simp [KeyLoc.elems] at he
    | name n =>
      simp only [KeyLoc.elems, List.mem_singleton] at he; subst he
      refine nameRaw_wf ?_
      simpa [KeyLoc.elems, nameRaw_wire] using hv
    | digest b => simp only [KeyLoc.elems, List.mem_singleton] at he; subst he; exact h.1
    | unknown t => simp [KeyLoc.elems] at he
  refine ⟨binaryBlock_wf (by decide) (by decide) hv, ?_⟩
  unfold KeyLoc.decode
  rw [if_neg (by simp [KeyLoc.raw, binaryBlock])]
  rw [show k.raw.value = (k.elems.map Raw.wire).flatten from rfl, parseElements_iff.mpr (readsAs_of hw)]
  cases k with
  | none => rfl
  | name n =>
    simp only [KeyLoc.elems]
    rw [if_pos (show (nameRaw n).type = 7 from rfl), nameOf_nameRaw h (by simpa [KeyLoc.elems, nameRaw_wire] using hv)]
    rfl
  | digest b =>
    simp only [KeyLoc.elems]
    rw [if_neg (by rw [h.2]; decide), if_pos h.2]
  | unknown t => exact absurd h (by simp [KeyLocWF])

/-! ### SignatureInfo -/

theorem sigLoop_other {e : Raw} (h : OtherOk e) (s : SigInfo) (last : Nat) (es : List Raw) :
    sigLoop s last (e :: es) = sigLoop { s with others := s.others ++ [e] } last es := by
  obtain ⟨h1, h2, h3, h4⟩ := h
  conv => lhs; unfold sigLoop
  rw [if_neg h1, if_neg h2]
  by_cases h38 : e.type = 38
  · rw [if_pos h38, if_neg]
    have := List.length_pos_iff.mpr (h3 h38)
    omega
  · rw [if_neg h38]
    by_cases h253 : e.type = 253
    · rw [if_pos h253]
    · rw [if_neg h253, if_neg]
      rw [isCritical_iff]
      intro hn; apply hn
      rcases h4 with h4 | h4
      · exact absurd h4 h253
      · exact h4

theorem sigLoop_others (es : List Raw) (h : ∀ e ∈ es, OtherOk e) (s : SigInfo) (last : Nat) :
    sigLoop s last es = (true, { s with others := s.others ++ es }) := by
  induction es generalizing s with
  | nil => simp [sigLoop]
  | cons e es ih =>
    rw [sigLoop_other (h e (by simp)), ih (fun x hx => h x (by simp [hx]))]
    simp

/-- A bad element stops the loop. -/
theorem sigLoop_bad {e : Raw} (h27 : e.type ≠ 27) (h28 : e.type ≠ 28) (h : ¬ OtherOk e) (s : SigInfo)
    (last : Nat) (es : List Raw) : (sigLoop s last (e :: es)).1 = false := by
  unfold sigLoop
  rw [if_neg h27, if_neg h28]
  by_cases h38 : e.type = 38
  · rw [if_pos h38]
    by_cases hv : e.value.length < 1
    · rw [if_pos hv]
    · exfalso; apply h
      refine ⟨h27, h28, fun _ hv' => ?_, Or.inr ⟨by omega, by omega⟩⟩
      rw [hv'] at hv; simp at hv
  · rw [if_neg h38]
    by_cases h253 : e.type = 253
    · exfalso; apply h
      exact ⟨h27, h28, fun h => absurd h h38, Or.inl h253⟩
    · rw [if_neg h253]
      by_cases hc : isCriticalType e.type = true
      · rw [if_pos hc]
      · exfalso; apply h
        rw [isCritical_iff] at hc
        exact ⟨h27, h28, fun h => absurd h h38, Or.inr (by omega)⟩

/-- Stage 2: after a KeyLocator only other elements. -/
theorem sigLoop2 (es : List Raw) (s s' : SigInfo) :
    sigLoop s 2 es = (true, s') ↔ (∀ e ∈ es, OtherOk e) ∧ s' = { s with others := s.others ++ es } := by
  constructor
  · intro h
    have key : ∀ e ∈ es, OtherOk e := by
      induction es generalizing s with
      | nil => simp
      | cons e es ih =>
        by_cases h27 : e.type = 27
        · unfold sigLoop at h; simp [h27] at h
        · by_cases h28 : e.type = 28
          · unfold sigLoop at h; simp [h28] at h
          · by_cases ho : OtherOk e
            · rw [sigLoop_other ho] at h
              intro x hx
              rcases List.mem_cons.mp hx with rfl | hx
              · exact ho
              · exact ih _ h x hx
            · have := sigLoop_bad h27 h28 ho s 2 es
              rw [h] at this; simp at this
    refine ⟨key, ?_⟩
    rw [sigLoop_others es key] at h
    simp only [Prod.mk.injEq, true_and] at h
    exact h.symm
  · rintro ⟨h, rfl⟩; exact sigLoop_others es h s 2

/-- Stage 1: after the SignatureType. -/
theorem sigLoop1 (es : List Raw) (s s' : SigInfo) (hk : s.keyLocator = none) :
    sigLoop s 1 es = (true, s') ↔ ∃ kl : Option Raw,
      es.filter (fun e => e.type = 27 ∨ e.type = 28) = kl.toList ∧
      (∀ k ∈ kl, k.type = 28 ∧ ∃ l, KeyLoc.decode k = some l) ∧
      (∀ e ∈ es, e.type = 27 ∨ e.type = 28 ∨ OtherOk e) ∧
      s' = ⟨s.type, kl.bind KeyLoc.decode, s.others ++ es.filter (fun e => e.type ≠ 27 ∧ e.type ≠ 28)⟩ := by
  induction es generalizing s with
  | nil =>
    simp only [sigLoop, Prod.mk.injEq, true_and, List.filter_nil, List.append_nil]
    constructor
    · rintro rfl
      exact ⟨none, by simp, by simp, by simp, by cases s; simp_all⟩
    · rintro ⟨kl, h1, _, _, h4⟩
      cases kl with
      | none => rw [h4]; cases s; simp only at hk; subst hk; rfl
      | some k => simp at h1
  | cons e es ih =>
    by_cases h27 : e.type = 27
    · constructor
      · intro h; unfold sigLoop at h; simp [h27] at h
      · rintro ⟨kl, h1, h2, _, _⟩
        rw [List.filter_cons_of_pos (by simp [h27])] at h1
        cases kl with
        | none => simp at h1
        | some k =>
          simp only [Option.toList_some, List.cons.injEq] at h1
          have := (h2 k (by simp)).1
          rw [← h1.1] at this; omega
    · by_cases h28 : e.type = 28
      · have hu : sigLoop s 1 (e :: es) = match KeyLoc.decode e with
            | none => (false, { s with keyLocator := none })
            | some k => sigLoop { s with keyLocator := some k } 2 es := by
          conv => lhs; unfold sigLoop
          rw [if_neg h27, if_pos h28, if_neg (by decide)]
          cases KeyLoc.decode e <;> rfl
        rw [hu]
        cases hd : KeyLoc.decode e with
        | none =>
          simp only
          constructor
          · intro h; simp at h
          · rintro ⟨kl, h1, h2, _, _⟩
            rw [List.filter_cons_of_pos (by simp [h28])] at h1
            cases kl with
            | none => simp at h1
            | some k =>
              simp only [Option.toList_some, List.cons.injEq] at h1
              obtain ⟨l, hl⟩ := (h2 k (by simp)).2
              rw [← h1.1, hd] at hl; simp at hl
        | some l =>
          simp only
          rw [sigLoop2]
          constructor
          · rintro ⟨h1, rfl⟩
            refine ⟨some e, ?_, ?_, ?_, ?_⟩
            · rw [List.filter_cons_of_pos (by simp [h28])]
              simp only [Option.toList_some, List.cons.injEq, true_and]
              rw [List.filter_eq_nil_iff]
              intro x hx
              have := h1 x hx
              simp [this.1, this.2.1]
            · intro k hk'
              simp at hk'; subst hk'; exact ⟨h28, l, hd⟩
            · intro x hx
              rcases List.mem_cons.mp hx with rfl | hx
              · exact Or.inr (Or.inl h28)
              · exact Or.inr (Or.inr (h1 x hx))
            · simp only [Option.bind_some, hd]
              congr 2
              rw [List.filter_cons_of_neg (by simp [h28])]
              symm
              rw [List.filter_eq_self]
              intro x hx
              have := h1 x hx
              simp [this.1, this.2.1]
          · rintro ⟨kl, h1, h2, h3, h4⟩
            rw [List.filter_cons_of_pos (by simp [h28])] at h1
            cases kl with
            | none => simp at h1
            | some k =>
              simp only [Option.toList_some, List.cons.injEq] at h1
              obtain ⟨rfl, h1⟩ := h1
              rw [List.filter_eq_nil_iff] at h1
              have h5 : ∀ x ∈ es, OtherOk x := by
                intro x hx
                have a := h1 x hx
                rcases h3 x (by simp [hx]) with b | b | b
                · exact absurd b (by simp at a; exact a.1)
                · exact absurd b (by simp at a; exact a.2)
                · exact b
              refine ⟨h5, ?_⟩
              rw [h4]
              simp only [Option.bind_some, hd]
              congr 2
              rw [List.filter_cons_of_neg (by simp [h28]), List.filter_eq_self]
              intro x hx
              have := h5 x hx
              simp [this.1, this.2.1]
      · by_cases ho : OtherOk e
        · rw [sigLoop_other ho, ih { s with others := s.others ++ [e] } hk]
          rw [List.filter_cons_of_neg (by simp [h27, h28]), List.filter_cons_of_pos (by simp [h27, h28])]
          constructor
          · rintro ⟨kl, h1, h2, h3, h4⟩
            refine ⟨kl, h1, h2, ?_, by rw [h4]; simp⟩
            intro x hx
            rcases List.mem_cons.mp hx with rfl | hx
            · exact Or.inr (Or.inr ho)
            · exact h3 x hx
          · rintro ⟨kl, h1, h2, h3, h4⟩
            exact ⟨kl, h1, h2, fun x hx => h3 x (by simp [hx]), by rw [h4]; simp⟩
        · constructor
          · intro h
            have := sigLoop_bad h27 h28 ho s 1 es
            rw [h] at this; simp at this
          · rintro ⟨kl, _, _, h3, _⟩
            rcases h3 e (by simp) with b | b | b
            · exact absurd b h27
            · exact absurd b h28
            · exact absurd b ho

/-- Stage 0. A KeyLocator before the SignatureType ends in failure. -/
theorem sigLoop0 (es : List Raw) (s s' : SigInfo) (hk : s.keyLocator = none) (ht : s.type = none) :
    (sigLoop s 0 es = (true, s') ∧ s'.type.isSome = true) ↔
    ∃ (st : Raw) (kl : Option Raw) (t : Nat),
      es.filter (fun e => e.type = 27 ∨ e.type = 28) = st :: kl.toList ∧
      st.type = 27 ∧ readNniValueAs 65535 st.value = some t ∧
      (∀ k ∈ kl, k.type = 28 ∧ ∃ l, KeyLoc.decode k = some l) ∧
      (∀ e ∈ es, e.type = 27 ∨ e.type = 28 ∨ OtherOk e) ∧
      s' = ⟨some t, kl.bind KeyLoc.decode, s.others ++ es.filter (fun e => e.type ≠ 27 ∧ e.type ≠ 28)⟩ := by
  induction es generalizing s with
  | nil =>
    simp only [sigLoop, Prod.mk.injEq, true_and, List.filter_nil]
    constructor
    · rintro ⟨rfl, h⟩; rw [ht] at h; simp at h
    · rintro ⟨st, kl, t, h1, _⟩; simp at h1
  | cons e es ih =>
    by_cases h27 : e.type = 27
    · have hu : sigLoop s 0 (e :: es) = match readNniValueAs 65535 e.value with
          | none => (false, s)
          | some t => sigLoop { s with type := some t } 1 es := by
        conv => lhs; unfold sigLoop
        rw [if_pos h27, if_neg (by decide)]
        cases readNniValueAs 65535 e.value <;> rfl
      rw [hu]
      cases hr : readNniValueAs 65535 e.value with
      | none =>
        simp only
        constructor
        · intro h; simp at h
        · rintro ⟨st, kl, t, h1, _, h2, _⟩
          rw [List.filter_cons_of_pos (by simp [h27])] at h1
          simp only [List.cons.injEq] at h1
          rw [← h1.1, hr] at h2; simp at h2
      | some t =>
        simp only
        rw [sigLoop1 _ _ _ (by simpa using hk)]
        constructor
        · rintro ⟨⟨kl, h1, h2, h3, h4⟩, _⟩
          refine ⟨e, kl, t, ?_, h27, hr, h2, ?_, ?_⟩
          · rw [List.filter_cons_of_pos (by simp [h27]), h1]
          · intro x hx
            rcases List.mem_cons.mp hx with rfl | hx
            · exact Or.inl h27
            · exact h3 x hx
          · rw [h4, List.filter_cons_of_neg (by simp [h27])]
        · rintro ⟨st, kl, t', h1, h0, h2, h3, h4, h5⟩
          rw [List.filter_cons_of_pos (by simp [h27])] at h1
          simp only [List.cons.injEq] at h1
          obtain ⟨rfl, h1⟩ := h1
          rw [hr] at h2
          simp only [Option.some.injEq] at h2
          subst h2
          refine ⟨⟨kl, h1, h3, fun x hx => h4 x (by simp [hx]), ?_⟩, by rw [h5]; rfl⟩
          rw [h5, List.filter_cons_of_neg (by simp [h27])]
    · by_cases h28 : e.type = 28
      · constructor
        · rintro ⟨h, hs⟩
          exfalso
          unfold sigLoop at h
          rw [if_neg h27, if_pos h28, if_neg (by decide)] at h
          cases hd : KeyLoc.decode e with
          | none => rw [hd] at h; simp at h
          | some l =>
            rw [hd] at h
            simp only at h
            rw [sigLoop2] at h
            rw [h.2] at hs
            simp [ht] at hs
        · rintro ⟨st, kl, t, h1, h0, _⟩
          rw [List.filter_cons_of_pos (by simp [h28])] at h1
          simp only [List.cons.injEq] at h1
          rw [← h1.1] at h0; omega
      · by_cases ho : OtherOk e
        · rw [sigLoop_other ho, ih { s with others := s.others ++ [e] } hk ht]
          rw [List.filter_cons_of_neg (by simp [h27, h28]), List.filter_cons_of_pos (by simp [h27, h28])]
          constructor
          · rintro ⟨st, kl, t, h1, h0, h2, h3, h4, h5⟩
            refine ⟨st, kl, t, h1, h0, h2, h3, ?_, by rw [h5]; simp⟩
            intro x hx
            rcases List.mem_cons.mp hx with rfl | hx
            · exact Or.inr (Or.inr ho)
            · exact h4 x hx
          · rintro ⟨st, kl, t, h1, h0, h2, h3, h4, h5⟩
            exact ⟨st, kl, t, h1, h0, h2, h3, fun x hx => h4 x (by simp [hx]), by rw [h5]; simp⟩
        · constructor
          · rintro ⟨h, _⟩
            have := sigLoop_bad h27 h28 ho s 0 es
            rw [h] at this; simp at this
          · rintro ⟨st, kl, t, _, _, _, _, h4, _⟩
            rcases h4 e (by simp) with b | b | b
            · exact absurd b h27
            · exact absurd b h28
            · exact absurd b ho

/-- Decoding a SignatureInfo succeeds exactly on the grammar. -/
theorem sigDecode_iff (b : Raw) (t : Nat) (s : SigInfo) :
    SigInfo.wireDecode b t = (true, s) ↔ b.type = t ∧ ∃ es, ReadsAs b.value es ∧ SigGrammar es s := by
  unfold SigInfo.wireDecode
  cases hp : parseElements b.value with
  | none =>
    simp only
    constructor
    · intro h; simp at h
    · rintro ⟨_, es, h, _⟩
      rw [parseElements_iff.mpr h] at hp; simp at hp
  | some es =>
    simp only
    have hr := parseElements_iff.mp hp
    have uniq : ∀ es', ReadsAs b.value es' → es' = es := by
      intro es' h'
      have := parseElements_iff.mpr h'
      rw [hp] at this; simpa using this.symm
    by_cases ht : b.type = t
    · rw [if_neg (by simp [ht])]
      have key := sigLoop0 es SigInfo.init s rfl rfl
      have e1 : (if (sigLoop SigInfo.init 0 es).1 = true then
            ((sigLoop SigInfo.init 0 es).2.type.isSome, (sigLoop SigInfo.init 0 es).2)
            else sigLoop SigInfo.init 0 es) = (true, s) ↔
          sigLoop SigInfo.init 0 es = (true, s) ∧ s.type.isSome = true := by
        generalize sigLoop SigInfo.init 0 es = r
        obtain ⟨r1, r2⟩ := r
        cases r1
        · simp
        · simp only [if_true, Prod.mk.injEq, true_and]
          constructor
          · rintro ⟨h1, rfl⟩; exact ⟨rfl, h1⟩
          · rintro ⟨rfl, h1⟩; exact ⟨h1, rfl⟩
      rw [e1, key]
      constructor
      · rintro ⟨st, kl, t', h1, h2, h3, h4, h5, h6⟩
        refine ⟨ht, es, hr, st, kl, t', h1, h2, h3, h4, h5, ?_⟩
        subst h6
        simp [SigInfo.init]
      · rintro ⟨_, es', hr', st, kl, t', h1, h2, h3, h4, h5, h6, h7, h8⟩
        have := uniq es' hr'; subst this
        refine ⟨st, kl, t', h1, h2, h3, h4, h5, ?_⟩
        cases s; simp_all [SigInfo.init]
    · rw [if_pos ht]
      constructor
      · intro h; simp at h
      · rintro ⟨h, _⟩; exact absurd h ht

/-- The elements in the value of an encoded SignatureInfo. -/
def SigInfo.elems (s : SigInfo) : List Raw :=
  (match s.type with | some t => [binaryBlock 27 (writeNonNegativeInteger t)] | none => []) ++
  ((match s.keyLocator with | some k => [k.raw] | none => []) ++ s.others)

theorem SigInfo.encode_eq {s : SigInfo} (h : SigWF s) (t : Nat) :
    s.encode t = some (tlvBytes t ((s.elems.map Raw.wire).flatten)) := by
  obtain ⟨st, hst, _⟩ := h.type
  unfold SigInfo.encode SigInfo.elems
  rw [hst]
  simp only
  cases hk : s.keyLocator with
  | none => simp [nniTlv, binaryBlock]
  | some k =>
    simp only
    rw [KeyLoc.encode_eq (h.key k hk)]
    simp [nniTlv, binaryBlock, KeyLoc.raw]

theorem SigInfo.elems_size {s : SigInfo} (h : SigWF s) : ((s.elems.map Raw.wire).flatten).length < 2 ^ 64 := by
  have := h.size 22 _ (SigInfo.encode_eq h 22)
  have := tlvBytes_ge 22 ((s.elems.map Raw.wire).flatten)
  omega

theorem SigInfo.elems_wf {s : SigInfo} (h : SigWF s) : ∀ e ∈ s.elems, RawWF e := by
  intro e he
  have hsz := SigInfo.elems_size h
  have hle := flatten_mem_le he
  have he' := he
  unfold SigInfo.elems at he
  rw [List.mem_append, List.mem_append] at he
  rcases he with he | he | he
  · split at he
    · simp only [List.mem_singleton] at he; subst he
      exact binaryBlock_wf (by decide) (by decide) (nni_len_lt _)
    · simp at he
  · split at he
    · rename_i k hk
      simp only [List.mem_singleton] at he; subst he
      exact (KeyLoc.decode_raw (h.key k hk) (by omega)).1
    · simp at he
  · exact (h.others e he).1

theorem SigInfo.grammar_elems {s : SigInfo} (h : SigWF s) : SigGrammar s.elems s := by
  obtain ⟨st, hst, hlt⟩ := h.type
  have hsz := SigInfo.elems_size h
  have hoth : ∀ e ∈ s.others, ¬ (e.type = 27 ∨ e.type = 28) := by
    intro e he
    have := (h.others e he).2
    rintro (a | a)
    · exact this.1 a
    · exact this.2.1 a
  have hf1 : s.others.filter (fun e => e.type = 27 ∨ e.type = 28) = [] := by
    rw [List.filter_eq_nil_iff]; intro e he; simpa using hoth e he
  have hf2 : s.others.filter (fun e => e.type ≠ 27 ∧ e.type ≠ 28) = s.others := by
    rw [List.filter_eq_self]; intro e he; have := hoth e he; simpa using this
  refine ⟨binaryBlock 27 (writeNonNegativeInteger st), s.keyLocator.map KeyLoc.raw, st, ?_, rfl, ?_, ?_, ?_, hst, ?_, ?_⟩
  · unfold SigInfo.elems
    rw [hst]
    simp only [List.filter_append, hf1]
    cases s.keyLocator <;> simp [binaryBlock, KeyLoc.raw]
  · exact readNniAs_write (by omega) (by omega)
  · intro k hk
    cases hkl : s.keyLocator with
    | none => simp [hkl] at hk
    | some l =>
      simp [hkl] at hk; subst hk
      refine ⟨rfl, l, (KeyLoc.decode_raw (h.key l hkl) ?_).2⟩
      have : l.raw ∈ s.elems := by unfold SigInfo.elems; simp [hkl]
      have := flatten_mem_le this
      omega
  · intro e he
    unfold SigInfo.elems at he
    rw [List.mem_append, List.mem_append, hst] at he
    rcases he with he | he | he
    · simp only [List.mem_singleton] at he; subst he; exact Or.inl rfl
    · split at he
      · simp only [List.mem_singleton] at he; subst he; exact Or.inr (Or.inl rfl)
      · simp at he
    · exact Or.inr (Or.inr (h.others e he).2)
  · cases hkl : s.keyLocator with
    | none => simp
    | some l =>
      simp only [Option.map_some, Option.bind_some]
      have : l.raw ∈ s.elems := by unfold SigInfo.elems; simp [hkl]
      have := flatten_mem_le this
      rw [(KeyLoc.decode_raw (h.key l hkl) (by omega)).2]
  · unfold SigInfo.elems
    rw [hst]
    simp only [List.filter_append, hf2]
    cases s.keyLocator <;> simp [binaryBlock, KeyLoc.raw]

theorem SigInfo.decode_encode {s : SigInfo} (h : SigWF s) (b : Raw) (t : Nat) (ht : b.type = t)
    (hb : b.value = (s.elems.map Raw.wire).flatten) : SigInfo.wireDecode b t = (true, s) := by
  rw [sigDecode_iff]
  exact ⟨ht, s.elems, by rw [hb]; exact readsAs_of (SigInfo.elems_wf h), SigInfo.grammar_elems h⟩

end Ndn.Packet
