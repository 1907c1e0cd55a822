import Verif.Object.AnnounceSpec
import Verif.Object.LinkProps
import Verif.Cert.Props
import Verif.Name.EditProps
import Verif.Interest.Props

/-! # C70: prefix announcements and metadata objects -/

namespace Ndn.Object
open Ndn.Tlv Ndn.Tlv.Spec Ndn.Block Ndn.Block.Spec Ndn.Name Ndn.Packet Ndn.Packet.Spec Ndn.Object.Spec Ndn.Cert Ndn.Cert.Spec Ndn.Interest

/-! ### Names -/

theorem nni_form_iff (v : Bytes) : (∃ n, NniForm v n) ↔ v.length = 1 ∨ v.length = 2 ∨ v.length = 4 ∨ v.length = 8 := by
  constructor
  · rintro ⟨n, h⟩; cases h <;> simp
  · intro h
    have : (readNniValue v).isSome = true := by
      unfold readNniValue readNonNegativeInteger
      rw [if_neg (by omega)]
      simp [readNumber]
    obtain ⟨n, hn⟩ := Option.isSome_iff_exists.1 this
    exact ⟨n, readNniValue_iff.1 hn⟩

theorem convForm_iff (s : Settings) (k : Conv) (c : Comp) : k.is s c = true ↔ ConvForm s k.marker k.typ c := by
  unfold Conv.is ConvForm isNumberWithMarker isNumber
  simp only [Bool.or_eq_true, Bool.and_eq_true, decide_eq_true_eq]
  constructor
  · rintro (⟨⟨h1, h2⟩, h3, h4⟩ | ⟨⟨h1, h2⟩, h3⟩)
    · cases hv : c.value with
      | nil => rw [hv] at h4; cases h4
      | cons a r =>
        rw [hv] at h4 h3
        simp only [List.head?_cons, Option.some.injEq] at h4
        simp only [List.length_cons] at h3
        obtain ⟨n, hn⟩ := (nni_form_iff r).2 (by omega)
        exact ⟨n, Or.inl ⟨h1, h2, r, by rw [h4], hn⟩⟩
    · obtain ⟨n, hn⟩ := (nni_form_iff c.value).2 (by omega)
      exact ⟨n, Or.inr ⟨h1, h2, hn⟩⟩
  · rintro ⟨n, ⟨h1, h2, r, h3, h4⟩ | ⟨h1, h2, h3⟩⟩
    · have := (nni_form_iff r).1 ⟨n, h4⟩
      refine Or.inl ⟨⟨h1, h2⟩, ?_, ?_⟩
      · rw [h3]; simp only [List.length_cons]; omega
      · rw [h3]; rfl
    · have := (nni_form_iff c.value).1 ⟨n, h3⟩
      exact Or.inr ⟨⟨h1, h2⟩, by omega⟩

theorem nameEnds_iff (s : Settings) (kw : Comp) (n : List Comp) :
    nameEnds s kw n = true ↔ NameOf s kw n (n.take (n.length - 3)) := by
  unfold nameEnds NameOf
  by_cases h : n.length < 3
  · rw [if_pos h]
    constructor
    · intro h'; cases h'
    · rintro ⟨v, g, h1, -⟩
      have := congrArg List.length h1
      simp at this; omega
  · rw [if_neg h]
    have key : ∃ p a b c, n = p ++ [a, b, c] := by
      refine ⟨n.take (n.length - 3), n[n.length - 3], n[n.length - 2], n[n.length - 1], ?_⟩
      apply List.ext_getElem
      · simp; omega
      · intro i h1 h2
        by_cases hi : i < n.length - 3
        · rw [List.getElem_append_left (by simp; omega)]; simp
        · rw [List.getElem_append_right (by simp; omega)]
          have hl : (n.take (n.length - 3)).length = n.length - 3 := by simp
          have : i = n.length - 3 ∨ i = n.length - 2 ∨ i = n.length - 1 := by omega
          rcases this with rfl | rfl | rfl
          · simp
          · have e : n.length - 2 - (n.take (n.length - 3)).length = 1 := by omega
            simp only [e]; rfl
          · have e : n.length - 1 - (n.take (n.length - 3)).length = 2 := by omega
            simp only [e]; rfl
    obtain ⟨p, a, b, c, rfl⟩ := key
    have e1 : (p ++ [a, b, c])[(p ++ [a, b, c]).length - 3]? = some a := by simp
    have e2 : (p ++ [a, b, c])[(p ++ [a, b, c]).length - 2]? = some b := by
      simp [List.getElem?_append_right]
    have e3 : (p ++ [a, b, c])[(p ++ [a, b, c]).length - 1]? = some c := by
      simp [List.getElem?_append_right]
    have e4 : (p ++ [a, b, c]).take ((p ++ [a, b, c]).length - 3) = p := by simp
    rw [e1, e2, e3, e4]
    simp only [Option.map_some, Option.getD_some, Bool.and_eq_true, beq_iff_eq, Option.some.injEq, convForm_iff]
    constructor
    · rintro ⟨⟨rfl, h1⟩, h2⟩; exact ⟨b, c, rfl, h1, h2⟩
    · rintro ⟨v, g, h1, h2, h3⟩
      have := List.append_cancel_left h1
      simp only [List.cons.injEq, and_true] at this
      obtain ⟨rfl, rfl, rfl⟩ := this
      exact ⟨⟨rfl, h2⟩, h3⟩

theorem nameOf_take {s : Settings} {kw : Comp} {n p : List Comp} (h : NameOf s kw n p) : n.take (n.length - 3) = p := by
  obtain ⟨v, g, rfl, -⟩ := h
  simp

/-! ### Content -/

theorem firstOf_iff (t : Nat) (es : List Raw) (x : Raw) :
    es.find? (fun e => e.type == t) = some x ↔ FirstOf t es x := by
  induction es with
  | nil =>
    constructor
    · intro h; cases h
    · rintro ⟨pre, post, h, -⟩; simp at h
  | cons e es ih =>
    by_cases h : e.type = t
    · rw [List.find?_cons_of_pos (by simpa using h)]
      constructor
      · intro hx; injection hx with hx; subst hx; exact ⟨[], es, rfl, h, by simp⟩
      · rintro ⟨pre, post, h1, h2, h3⟩
        cases pre with
        | nil => injection h1 with h1; rw [h1]
        | cons p pre =>
          injection h1 with h1; subst h1
          exact absurd h (h3 _ (List.mem_cons_self ..))
    · rw [List.find?_cons_of_neg (by simpa using h), ih]
      constructor
      · rintro ⟨pre, post, rfl, h2, h3⟩
        refine ⟨e :: pre, post, rfl, h2, ?_⟩
        intro y hy
        rcases List.mem_cons.1 hy with rfl | hy
        · exact h
        · exact h3 y hy
      · rintro ⟨pre, post, h1, h2, h3⟩
        cases pre with
        | nil => injection h1 with h1; subst h1; exact absurd h2 h
        | cons p pre =>
          injection h1 with h1 h1'; subst h1
          exact ⟨pre, post, h1', h2, fun y hy => h3 y (List.mem_cons_of_mem _ hy)⟩

theorem firstOf_none (t : Nat) (es : List Raw) :
    es.find? (fun e => e.type == t) = none ↔ ∀ y ∈ es, y.type ≠ t := by
  rw [List.find?_eq_none]
  simp

theorem payload_iff (f : DFields) (es : List Raw) :
    ((payload f).length ≠ 0 ∧ parseElements (payload f) = some es) ↔ Payload f es := by
  unfold payload Payload
  cases f.content with
  | none =>
    constructor
    · rintro ⟨h, -⟩; exact absurd rfl h
    · rintro ⟨c, h, -⟩; cases h
  | some c =>
    simp only [Option.some.injEq]
    constructor
    · rintro ⟨h1, h2⟩
      exact ⟨c, rfl, (by intro h; rw [h] at h1; exact h1 rfl), parseElements_iff.1 h2⟩
    · rintro ⟨c, rfl, h1, h2⟩
      exact ⟨(by intro h; exact h1 (List.length_eq_zero_iff.1 h)), parseElements_iff.2 h2⟩

theorem ignorable_iff (e : Raw) : isCriticalType e.type = false ↔ Ignorable e := by
  unfold Ignorable
  have := isCritical_iff e.type
  by_cases h : e.type > 31 ∧ e.type % 2 = 0
  · constructor
    · intro _; exact h
    · intro _
      rcases Bool.eq_false_or_eq_true (isCriticalType e.type) with hc | hc
      · exact absurd h (this.1 hc)
      · exact hc
  · constructor
    · intro hc
      have := this.2 h
      rw [hc] at this; cases this
    · intro h'; exact absurd h' h

theorem others_iff (es : List Raw) :
    es.any (fun e => e.type != 109 && e.type != 253 && isCriticalType e.type) = false ↔
      ∀ y ∈ es, y.type = 109 ∨ y.type = 253 ∨ Ignorable y := by
  rw [List.any_eq_false]
  constructor
  · intro h y hy
    have := h y hy
    by_cases h1 : y.type = 109
    · exact Or.inl h1
    · by_cases h2 : y.type = 253
      · exact Or.inr (Or.inl h2)
      · refine Or.inr (Or.inr ((ignorable_iff y).1 ?_))
        simpa [h1, h2] using this
  · intro h y hy
    rcases h y hy with h1 | h1 | h1
    · simp [h1]
    · simp [h1]
    · simp [(ignorable_iff y).2 h1]

/-! ### Decoding announcements -/

/-- **C70**, decoding: a packet is accepted exactly when it is an announcement; the object has the
announced name, the expiration period (as a signed number) and validity period of the packet, and
remembers the packet. -/
theorem C70_announcement_exact (s : Settings) (other : Bytes → Parsed) (f : DFields) (pa : PA) :
    paDecode s other f = .ok pa ↔
      ∃ n e v, Announces s other f n e v ∧ pa = ⟨n, toInt64 e, v, some f⟩ := by
  have hpay := payload_iff f
  constructor
  · intro h
    unfold paDecode at h
    split at h
    · cases h
    rename_i hn
    split at h
    · cases h
    rename_i ht
    split at h
    · cases h
    rename_i hl
    split at h
    · cases h
    rename_i es hes
    split at h
    · cases h
    rename_i x hx
    split at h
    · cases h
    rename_i e he
    have hn' : NameOf s paKeyword f.name _ := (nameEnds_iff s paKeyword f.name).1 (by simpa using hn)
    have ht' : f.minfo.type = 5 := Decidable.byContradiction ht
    have hp := (hpay es).1 ⟨hl, hes⟩
    have hx' := (firstOf_iff 109 es x).1 hx
    have he' := readNniValue_iff.1 he
    dsimp only at h
    split at h
    · rename_i hy
      split at h
      · cases h
      · rename_i ha
        injection h with h
        refine ⟨_, e, none, ⟨hn', ht', es, hp, ⟨x, hx', he'⟩, (firstOf_none 253 es).1 hy, ?_⟩, h.symm⟩
        exact (others_iff es).1 (by simpa using ha)
    · rename_i y hy
      split at h
      · rename_i v hv
        split at h
        · cases h
        · rename_i ha
          injection h with h
          refine ⟨_, e, some v, ⟨hn', ht', es, hp, ⟨x, hx', he'⟩, ⟨y, (firstOf_iff 253 es y).1 hy, hv⟩, ?_⟩, h.symm⟩
          exact (others_iff es).1 (by simpa using ha)
      all_goals cases h
  · rintro ⟨n, e, v, ⟨hn, ht, es, hp, ⟨x, hx, he⟩, hv, ho⟩, rfl⟩
    obtain ⟨hl, hes⟩ := (hpay es).2 hp
    have hn' : nameEnds s paKeyword f.name = true := (nameEnds_iff _ _ _).2 (by rw [nameOf_take hn]; exact hn)
    unfold paDecode
    rw [if_neg (by simp [hn']), if_neg (by simp [ht]), if_neg hl, hes]
    dsimp only
    rw [(firstOf_iff 109 es x).2 hx]
    dsimp only
    rw [readNniValue_iff.2 he]
    dsimp only
    rw [nameOf_take hn]
    cases v with
    | none =>
      rw [(firstOf_none 253 es).2 hv]
      dsimp only
      rw [if_neg (by rw [(others_iff es).2 ho]; simp)]
    | some v =>
      obtain ⟨y, hy, hd⟩ := hv
      rw [(firstOf_iff 253 es y).2 hy]
      dsimp only
      rw [hd]
      dsimp only
      rw [if_neg (by rw [(others_iff es).2 ho]; simp)]

/-- Two readings of the same packet agree. -/
theorem C70_announcement_unique (s : Settings) (other : Bytes → Parsed) (f : DFields) (n n' : List Comp) (e e' : Nat)
    (v v' : Option Validity) (h : Announces s other f n e v) (h' : Announces s other f n' e' v') :
    n = n' ∧ v = v' ∧ toInt64 e = toInt64 e' := by
  have h1 := (C70_announcement_exact s other f _).2 ⟨n, e, v, h, rfl⟩
  have h2 := (C70_announcement_exact s other f _).2 ⟨n', e', v', h', rfl⟩
  rw [h1] at h2
  injection h2 with h2
  injection h2 with a b c
  exact ⟨a, c, b⟩

/-! ### Encoding announcements -/

theorem nniForm_lt {v : Bytes} {n : Nat} (h : NniForm v n) : n < 2 ^ 64 := by
  cases h with
  | one a => have := a.toNat_lt; omega
  | two a b => have := a.toNat_lt; have := b.toNat_lt; omega
  | four a b c d => have := a.toNat_lt; have := b.toNat_lt; have := c.toNat_lt; have := d.toNat_lt; omega
  | eight a b c d e f g h =>
    have := a.toNat_lt; have := b.toNat_lt; have := c.toNat_lt; have := d.toNat_lt
    have := e.toNat_lt; have := f.toNat_lt; have := g.toNat_lt; have := h.toNat_lt; omega

theorem VarForm.length_le {w : Bytes} {n : Nat} (h : VarForm w n) : w.length ≤ 9 := by
  cases h <;> simp

theorem tlv_len_le {w v : Bytes} {t : Nat} (h : TlvForm w t v) : w.length ≤ v.length + 18 := by
  obtain ⟨a, b, rfl, h1, -, -, h2⟩ := h
  have := VarForm.length_le h1
  have := VarForm.length_le h2
  simp only [List.length_append]
  omega

/-- The element a validity period is encoded as: it decodes to the same bounds. -/
theorem vok_element {other : Bytes → Parsed} {v : Validity} (h : VOk other v) :
    ∃ y, y.wire = v.wireEncode.1 ∧ RawWF y ∧ y.wire.length ≤ 84 ∧
      Validity.default.wireDecode other y = (.ok, v.wireEncode.2) := by
  have key : ∃ y, fromBuffer v.wireEncode.1 = some (y, []) ∧
      Validity.default.wireDecode other y = (.ok, v.wireEncode.2) := by
    unfold VOk at h
    cases hw : v.wire with
    | none =>
      rw [hw] at h
      obtain ⟨b, h1, h2⟩ := C56_roundtrip other v Validity.default hw h.1 h.2
      refine ⟨b, h1, ?_⟩
      rw [h2]
      simp only [Validity.wireEncode, hw]
    | some w =>
      rw [hw] at h
      obtain ⟨b, h1, h2⟩ := h
      simp only [Validity.wireEncode, hw]
      exact ⟨b, h1, h2⟩
  obtain ⟨y, h1, h2⟩ := key
  obtain ⟨e1, e2⟩ := fromBuffer_iff.1 h1
  rw [List.append_nil] at e1
  refine ⟨y, e1.symm, e2, ?_, h2⟩
  obtain ⟨⟨-, nb, na, hp, -, l1, -, l2⟩, -⟩ := C56_accepted other _ _ _ h2
  obtain ⟨q1, q2⟩ := parseElements_iff.1 hp
  have a1 := tlv_len_le (q2 nb (by simp))
  have a2 := tlv_len_le (q2 na (by simp))
  have a3 := tlv_len_le e2
  have a4 := congrArg List.length q1
  simp only [List.map_cons, List.map_nil, List.flatten_cons, List.flatten_nil, List.append_nil, List.length_append] at a4
  omega

theorem VOk.encoded {other : Bytes → Parsed} {v : Validity} (h : VOk other v) : VOk other v.wireEncode.2 := by
  obtain ⟨y, h1, h2, -, h4⟩ := vok_element h
  have hw : v.wireEncode.2.wire = some v.wireEncode.1 := by
    unfold Validity.wireEncode
    cases hw : v.wire with
    | none => rfl
    | some w => exact hw
  unfold VOk
  rw [hw]
  exact ⟨y, fromBuffer_iff.2 ⟨by simp [h1], h2⟩, h4⟩

theorem wireEncode_bounds (v : Validity) :
    v.wireEncode.2.notBefore = v.notBefore ∧ v.wireEncode.2.notAfter = v.notAfter := by
  unfold Validity.wireEncode
  cases v.wire <;> exact ⟨rfl, rfl⟩

theorem conv_form {s : Settings} (hc : Coherent s) (k : Conv) (n : Nat) (hn : n < 2 ^ 64) :
    ∃ c, k.from s n = some c ∧ ConvForm s k.marker k.typ c := by
  obtain ⟨c, h1, h2, -⟩ := C16_roundtrip s k n hn hc
  exact ⟨c, h1, (convForm_iff s k c).1 h2⟩

/-- The packet `toData` builds is an announcement of the object's values. -/
theorem paPacket_announces {s : Settings} {other : Bytes → Parsed} (hc : Coherent s) (pa : PA) (version : Nat)
    (hv : version < 2 ^ 64) (hval : ∀ v, pa.validity = some v → VOk other v) {f : DFields}
    (hf : f.name = (paPacket s pa version).name ∧ f.minfo = (paPacket s pa version).minfo ∧
      f.content = (paPacket s pa version).content) :
    Announces s other f pa.name (pa.exp % 2 ^ 64).toNat (pa.validity.map fun v => v.wireEncode.2) := by
  obtain ⟨f1, f2, f3⟩ := hf
  obtain ⟨cv, hcv, hcv'⟩ := conv_form hc .version version hv
  obtain ⟨cs, hcs, hcs'⟩ := conv_form hc .segment 0 (by decide)
  have hE : (pa.exp % 2 ^ 64).toNat < 2 ^ 64 := by omega
  have hx : RawWF (binaryBlock 109 (writeNonNegativeInteger (pa.exp % 2 ^ 64).toNat)) :=
    binaryBlock_wf (by decide) (by decide) (by
      rw [writeNonNegativeInteger_length]; unfold sizeOfNonNegativeInteger; (repeat' split) <;> omega)
  have hnni : NniForm (writeNonNegativeInteger (pa.exp % 2 ^ 64).toNat) (pa.exp % 2 ^ 64).toNat :=
    writeNonNegativeInteger_form hE
  have hname : NameOf s ⟨32, [80, 65]⟩ f.name pa.name := by
    refine ⟨cv, cs, ?_, hcv', hcs'⟩
    rw [f1]
    simp only [paPacket, hcv, hcs, Option.toList_some, paKeyword]
    simp
  have htype : f.minfo.type = 5 := by rw [f2]; rfl
  have hne : nniTlv 109 (pa.exp % 2 ^ 64).toNat ≠ [] := by
    have := hx.length_ge
    intro h
    have e : (binaryBlock 109 (writeNonNegativeInteger (pa.exp % 2 ^ 64).toNat)).wire = nniTlv 109 (pa.exp % 2 ^ 64).toNat := rfl
    rw [e, h] at this
    simp at this
  cases hva : pa.validity with
  | none =>
    refine ⟨hname, htype, [binaryBlock 109 (writeNonNegativeInteger (pa.exp % 2 ^ 64).toNat)], ?_,
      ⟨binaryBlock 109 (writeNonNegativeInteger (pa.exp % 2 ^ 64).toNat), ⟨[], [], rfl, rfl, by simp⟩, by exact hnni⟩, ?_, ?_⟩
    · refine ⟨_, f3, ?_, ?_⟩
      · simp only [hva, binaryBlock, List.append_nil]; exact hne
      · simp only [hva, binaryBlock, List.append_nil]
        refine ⟨by simp [nniTlv], ?_⟩
        intro e he
        simp only [List.mem_singleton] at he; subst he
        exact hx
    · intro y hy
      simp only [List.mem_singleton] at hy; subst hy
      show 109 ≠ 253
      decide
    · intro y hy
      simp only [List.mem_singleton] at hy; subst hy
      exact Or.inl rfl
  | some v =>
    obtain ⟨y, h1, h2, -, h4⟩ := vok_element (hval v hva)
    have hyt : y.type = 253 := (C56_accepted other _ _ _ h4).1.1
    refine ⟨hname, htype, [binaryBlock 109 (writeNonNegativeInteger (pa.exp % 2 ^ 64).toNat), y], ?_,
      ⟨binaryBlock 109 (writeNonNegativeInteger (pa.exp % 2 ^ 64).toNat), ⟨[], [y], rfl, rfl, by simp⟩, by exact hnni⟩, ?_, ?_⟩
    · refine ⟨_, f3, ?_, ?_⟩
      · simp only [hva, binaryBlock]
        intro h
        exact hne (List.append_eq_nil_iff.1 h).1
      · simp only [hva, binaryBlock]
        refine ⟨by simp [nniTlv, h1], ?_⟩
        intro e he
        simp only [List.mem_cons, List.not_mem_nil, or_false] at he
        rcases he with rfl | rfl
        · exact hx
        · exact h2
    · refine ⟨y, ⟨[_], [], rfl, hyt, ?_⟩, h4⟩
      intro e he
      simp only [List.mem_singleton] at he; subst he
      show 109 ≠ 253
      decide
    · intro z hz
      simp only [List.mem_cons, List.not_mem_nil, or_false] at hz
      rcases hz with rfl | rfl
      · exact Or.inl rfl
      · exact Or.inr (Or.inl hyt)

theorem toInt64_mod {x : Int} (h1 : -2 ^ 63 ≤ x) (h2 : x < 2 ^ 63) : toInt64 (x % 2 ^ 64).toNat = x := by
  unfold toInt64
  split <;> omega

/-- What holds of announcements a program can hold. -/
structure PInv (s : Settings) (other : Bytes → Parsed) (pa : PA) : Prop where
  lo : -2 ^ 63 ≤ pa.exp
  hi : pa.exp < 2 ^ 63
  val : ∀ v, pa.validity = some v → VOk other v
  data : ∀ f, pa.data = some f → ∃ e, Announces s other f pa.name e pa.validity ∧ toInt64 e = pa.exp

theorem firstOf_mem {t : Nat} {es : List Raw} {x : Raw} (h : FirstOf t es x) : x ∈ es := by
  obtain ⟨pre, post, rfl, -⟩ := h; simp

theorem Spec.PaReach.inv {s : Settings} {other : Bytes → Parsed} (hc : Coherent s) {pa : PA} (h : PaReach s other pa) :
    PInv s other pa := by
  induction h with
  | empty => exact ⟨by decide, by decide, (fun v h => by cases h), (fun f h => by cases h)⟩
  | @ofData f pa h =>
    obtain ⟨n, e, v, ha, rfl⟩ := (C70_announcement_exact s other f pa).1 h
    have he : e < 2 ^ 64 := by
      obtain ⟨-, -, es, -, ⟨x, -, hx⟩, -⟩ := ha
      exact nniForm_lt hx
    refine ⟨?_, ?_, ?_, ?_⟩
    · show -2 ^ 63 ≤ toInt64 e; unfold toInt64; split <;> omega
    · show toInt64 e < 2 ^ 63; unfold toInt64; split <;> omega
    · rintro w hw
      dsimp only at hw
      subst hw
      obtain ⟨-, -, es, ⟨c, -, -, hr⟩, -, ⟨y, hy, hd⟩, -⟩ := ha
      have hwf : RawWF y := hr.2 y (firstOf_mem hy)
      have hwire := ((wireDecode_iff other _ _ y).1 hd).2
      obtain ⟨nb, na, -, -, -, -, -, -, -, hwire⟩ := hwire
      unfold VOk
      rw [hwire]
      exact ⟨y, fromBuffer_iff.2 ⟨by simp, hwf⟩, hd⟩
    · intro g hg
      injection hg with hg; subst hg
      exact ⟨e, ha, rfl⟩
  | @step pa op hr hp ih =>
    obtain ⟨lo, hi, val, dat⟩ := ih
    cases op with
    | setName n => exact ⟨lo, hi, val, (fun f h => by cases h)⟩
    | setExp ms =>
      simp only [PA.step]
      by_cases h : ms < 0
      · rw [if_pos h]; exact ⟨lo, hi, val, dat⟩
      · rw [if_neg h]
        have hp : ms < 2 ^ 63 := hp
        exact ⟨by show -2 ^ 63 ≤ ms; omega, hp, val, (fun f h => by cases h)⟩
    | setValidity v => exact ⟨lo, hi, (fun x hx => hp x hx), (fun f h => by cases h)⟩
    | toData version sign =>
      simp only [PA.step]
      cases hd : pa.data with
      | some f => exact ⟨lo, hi, val, dat⟩
      | none =>
        dsimp only
        refine ⟨lo, hi, ?_, ?_⟩
        · intro v hv
          dsimp only at hv
          cases hva : pa.validity with
          | none => rw [hva] at hv; cases hv
          | some v' =>
            rw [hva] at hv
            injection hv with hv
            subst hv
            exact VOk.encoded (val v' hva)
        · intro f hf
          injection hf with hf
          subst hf
          exact ⟨_, paPacket_announces hc pa version hp.1 val (hp.2 _), toInt64_mod lo hi⟩

/-- **C70**, round trip: whenever an announcement that a program can hold has its packet (decoded from
it, or made by `toData`), decoding that packet gives an announcement equal to it. -/
theorem C70_announcement_roundtrip (s : Settings) (other : Bytes → Parsed) (hc : Coherent s) (pa : PA)
    (h : PaReach s other pa) (f : DFields) (hf : pa.data = some f) :
    ∃ pa', paDecode s other f = .ok pa' ∧ PA.equals pa pa' = true ∧ pa'.data = some f := by
  obtain ⟨e, h1, h2⟩ := (h.inv hc).data f hf
  refine ⟨_, (C70_announcement_exact s other f _).2 ⟨_, _, _, h1, rfl⟩, ?_, rfl⟩
  unfold PA.equals
  simp only [h2, decide_true, Bool.true_and]
  cases pa.validity with
  | none => rfl
  | some v => simp [Validity.equals]

/-- **C70**: after `toData` returns there is a packet; it is the one there was before, or the one just
signed, with the given version and segment 0 at the end of its name. -/
theorem C70_toData (s : Settings) (hc : Coherent s) (pa pa' : PA) (version : Nat) (hv : version < 2 ^ 64) (sign : Sign)
    (hs : Signs sign) (ok : Bool) (h : pa.step s (.toData version sign) = (ok, pa')) :
    (∀ f, pa.data = some f → ok = true ∧ pa' = pa) ∧
    (pa.data = none → ∃ f cv cs, pa'.data = some f ∧ (∃ g, sign g = (ok, f)) ∧
      f.name = pa.name ++ [⟨32, [80, 65]⟩, cv, cs] ∧ Conv.version.to s cv = some version ∧ Conv.segment.to s cs = some 0 ∧
      pa'.name = pa.name ∧ pa'.exp = pa.exp ∧ PA.equals pa pa' = true) := by
  simp only [PA.step] at h
  constructor
  · intro f hf
    rw [hf] at h
    injection h with h1 h2
    exact ⟨h1.symm, h2.symm⟩
  · intro hn
    rw [hn] at h
    injection h with h1 h2
    obtain ⟨cv, a1, -, a2⟩ := C16_roundtrip s .version version hv hc
    obtain ⟨cs, b1, -, b2⟩ := C16_roundtrip s .segment 0 (by decide) hc
    subst h2
    refine ⟨_, cv, cs, rfl, ⟨_, by rw [← h1]⟩, ?_, a2, b2, rfl, rfl, ?_⟩
    · rw [(hs _).1]
      simp [paPacket, a1, b1, paKeyword]
    · unfold PA.equals
      cases pa.validity with
      | none => simp
      | some v =>
        have := wireEncode_bounds v
        simp [Validity.equals, this.1, this.2]

/-- The setters change the value they name, and nothing else but the packet, which is dropped. -/
theorem C70_setters (s : Settings) (pa : PA) :
    (∀ n, pa.step s (.setName n) = (true, ⟨n, pa.exp, pa.validity, none⟩)) ∧
    (∀ ms, 0 ≤ ms → pa.step s (.setExp ms) = (true, ⟨pa.name, ms, pa.validity, none⟩)) ∧
    (∀ ms, ms < 0 → pa.step s (.setExp ms) = (false, pa)) ∧
    (∀ v, pa.step s (.setValidity v) = (true, ⟨pa.name, pa.exp, v, none⟩)) := by
  refine ⟨fun _ => rfl, ?_, ?_, fun _ => rfl⟩
  · intro ms h; simp only [PA.step]; rw [if_neg (by omega)]
  · intro ms h; simp only [PA.step]; rw [if_pos h]

/-! ### What does not hold of announcements -/

/-- The expiration period of a decoded announcement is that of the packet. -/
def C70_expiration_claim : Prop :=
  ∀ (s : Settings) (other : Bytes → Parsed) (f : DFields) (pa : PA) (n : List Comp) (e : Nat) (v : Option Validity),
    paDecode s other f = .ok pa → Announces s other f n e v → pa.exp = e

/-- An announcement, for the counterexamples: the typed convention, a given content. -/
def sampleAnn (content : Bytes) : DFields :=
  ⟨[⟨8, [65]⟩, ⟨32, [80, 65]⟩, ⟨54, [1]⟩, ⟨50, [0]⟩], ⟨5, 0, none, []⟩, some (binaryBlock 21 content),
    ⟨some 0, none, []⟩, some (binaryBlock 23 [9])⟩

/-- A period of 2^63 ms or more is accepted and becomes negative. -/
theorem C70_expiration_counterexample : ¬ C70_expiration_claim := by
  intro h
  have hd : ∃ pa, paDecode ⟨false, false, true⟩ (fun _ => .badCast) (sampleAnn [109, 8, 128, 0, 0, 0, 0, 0, 0, 0]) = .ok pa ∧
      pa.exp = -2 ^ 63 := ⟨_, rfl, by decide⟩
  obtain ⟨pa, h1, h2⟩ := hd
  obtain ⟨n, e, v, h3, -⟩ := (C70_announcement_exact _ _ _ _).1 h1
  have := h _ _ _ _ _ _ _ h1 h3
  omega

/-- What holds: periods below 2^63 are as in the packet. -/
theorem C70_expiration_partial (s : Settings) (other : Bytes → Parsed) (f : DFields) (pa : PA) (n : List Comp) (e : Nat)
    (v : Option Validity) (h : paDecode s other f = .ok pa) (ha : Announces s other f n e v) (he : e < 2 ^ 63) :
    pa.exp = e ∧ 0 ≤ pa.exp := by
  have h2 := (C70_announcement_exact s other f _).2 ⟨n, e, v, ha, rfl⟩
  rw [h] at h2
  injection h2 with h2
  subst h2
  show toInt64 e = e ∧ 0 ≤ toInt64 e
  unfold toInt64
  rw [if_pos he]
  omega

/-- A packet that is not an announcement is rejected with a decoding error. -/
def C70_exception_claim : Prop :=
  ∀ (s : Settings) (other : Bytes → Parsed) (f : DFields), (¬ ∃ n e v, Announces s other f n e v) →
    paDecode s other f = .error

/-- A validity period with an impossible date makes the constructor throw `std::out_of_range`. -/
theorem C70_exception_counterexample : ¬ C70_exception_claim := by
  intro h
  have hd : paDecode ⟨false, false, true⟩ (fun _ => .badCast) (sampleAnn (nniTlv 109 1 ++
      tlvBytes 253 (tlvBytes 254 [50, 48, 50, 48, 49, 51, 51, 50, 84, 48, 48, 48, 48, 48, 48] ++
        tlvBytes 255 [50, 48, 50, 48, 49, 51, 51, 50, 84, 48, 48, 48, 48, 48, 48]))) = .outOfRange := by
    rfl
  have := h _ _ _ (by
    rintro ⟨n, e, v, ha⟩
    have := (C70_announcement_exact _ _ _ _).2 ⟨n, e, v, ha, rfl⟩
    rw [hd] at this
    cases this)
  rw [hd] at this
  cases this

/-- What holds: it is rejected, and with a decoding error unless its first validity period
element is the reason. -/
theorem C70_exception_partial (s : Settings) (other : Bytes → Parsed) (f : DFields)
    (h : ¬ ∃ n e v, Announces s other f n e v) :
    paDecode s other f = .error ∨ ∃ es y, Payload f es ∧ FirstOf 253 es y ∧
      ((Validity.default.wireDecode other y).1 = .outOfRange ∧ paDecode s other f = .outOfRange ∨
       (Validity.default.wireDecode other y).1 = .undefined ∧ paDecode s other f = .undefined) := by
  have hno : ∀ pa, paDecode s other f ≠ .ok pa := by
    intro pa hp
    obtain ⟨n, e, v, ha, -⟩ := (C70_announcement_exact s other f pa).1 hp
    exact h ⟨n, e, v, ha⟩
  have hpay := payload_iff f
  unfold paDecode at hno ⊢
  split
  · exact Or.inl rfl
  split
  · exact Or.inl rfl
  split
  · exact Or.inl rfl
  rename_i h1 h2 h3
  rw [if_neg h1, if_neg h2, if_neg h3] at hno
  split
  · exact Or.inl rfl
  rename_i es hes
  rw [hes] at hno
  dsimp only at hno
  split
  · exact Or.inl rfl
  rename_i x hx
  rw [hx] at hno
  dsimp only at hno
  split
  · exact Or.inl rfl
  rename_i e he
  rw [he] at hno
  dsimp only at hno ⊢
  split
  · split
    · exact Or.inl rfl
    · rename_i hy ha
      rw [hy] at hno
      dsimp only at hno
      rw [if_neg ha] at hno
      exact absurd rfl (hno _)
  · rename_i y hy
    have hy' := (firstOf_iff 253 es y).1 hy
    have hp := (hpay es).1 ⟨h3, hes⟩
    split
    · split
      · exact Or.inl rfl
      · rename_i v hv ha
        rw [hy] at hno
        dsimp only at hno
        rw [hv] at hno
        dsimp only at hno
        rw [if_neg ha] at hno
        exact absurd rfl (hno _)
    · exact Or.inl rfl
    · rename_i v hv
      exact Or.inr ⟨es, y, hp, hy', Or.inl ⟨by rw [hv], rfl⟩⟩
    · rename_i v hv
      exact Or.inr ⟨es, y, hp, hy', Or.inr ⟨by rw [hv], rfl⟩⟩

/-- If signing always fails, `toData` never returns a packet. -/
def C70_signed_claim : Prop :=
  ∀ (s : Settings) (sign : Sign) (ops : List PaOp), (∀ f, (sign f).1 = false) →
    (∀ version sg, PaOp.toData version sg ∈ ops → sg = sign) →
    ∀ version, ((ops.foldl (fun pa op => (pa.step s op).2) PA.empty).step s (.toData version sign)).1 = false

/-- The packet is kept even when signing threw: the next `toData` returns it, unsigned. -/
theorem C70_signed_counterexample : ¬ C70_signed_claim := by
  intro h
  have := h ⟨false, false, true⟩ (fun f => (false, f)) [.toData 1 (fun f => (false, f))] (fun _ => rfl) (by
    intro v sg hm
    simp only [List.mem_singleton] at hm
    injection hm) 1
  simp [PA.step, PA.empty] at this

/-- What holds: the first `toData` after construction or a setter returns exactly if signing
succeeds. -/
theorem C70_signed_partial (s : Settings) (pa : PA) (version : Nat) (sign : Sign) (h : pa.data = none) :
    ∃ g, (pa.step s (.toData version sign)).1 = (sign g).1 ∧ (pa.step s (.toData version sign)).2.data = some (sign g).2 := by
  simp only [PA.step]
  rw [h]
  exact ⟨_, rfl, rfl⟩

/-! ### Metadata objects -/

/-- **C70**, decoding metadata: a packet is accepted exactly when its name ends with the keyword, a
version and a segment number, it is of type Blob, and the first Name element in its content is a
name: that name is the versioned name. -/
theorem C70_metadata_exact (s : Settings) (f : DFields) (n : List Comp) :
    mdDecode s f = some n ↔ Describes s f n := by
  have hpay := payload_iff f
  unfold mdDecode Describes
  have hne : nameEnds s mdKeyword f.name = true ↔ ∃ p, NameOf s ⟨32, [109, 101, 116, 97, 100, 97, 116, 97]⟩ f.name p := by
    rw [nameEnds_iff]
    constructor
    · intro h; exact ⟨_, h⟩
    · rintro ⟨p, h⟩; rw [nameOf_take h]; exact h
  by_cases h1 : nameEnds s mdKeyword f.name = true
  · rw [if_neg (by simp [h1])]
    by_cases h2 : f.minfo.type = 0
    · rw [if_neg (by simp [h2])]
      by_cases h3 : (payload f).length = 0
      · rw [if_pos h3]
        constructor
        · intro h; cases h
        · rintro ⟨-, -, es, x, hp, -⟩
          exact absurd h3 ((hpay es).2 hp).1
      · rw [if_neg h3]
        constructor
        · intro h
          obtain ⟨es, h4, h5⟩ := Option.bind_eq_some_iff.1 h
          obtain ⟨x, h6, h7⟩ := Option.bind_eq_some_iff.1 h5
          exact ⟨hne.1 h1, h2, es, x, (hpay es).1 ⟨h3, h4⟩, (firstOf_iff 7 es x).1 h6, (nameOf_is x n).1 h7⟩
        · rintro ⟨-, -, es, x, hp, hx, hn⟩
          rw [((hpay es).2 hp).2, Option.bind_some, (firstOf_iff 7 es x).2 hx, Option.bind_some]
          exact (nameOf_is x n).2 hn
    · rw [if_pos (by simpa using h2)]
      constructor
      · intro h; cases h
      · rintro ⟨-, h, -⟩; exact absurd h h2
  · rw [if_pos (by simpa using h1)]
    constructor
    · intro h; cases h
    · rintro ⟨h, -⟩; exact absurd (hne.2 h) h1

/-- **C70**, making metadata: if `makeData` returns, the name it was given ends with the keyword and the
freshness period is not negative; the packet is what was signed, it has that name with the version
and segment 0 appended, and it decodes to the versioned name. -/
theorem C70_metadata_make (s : Settings) (hc : Coherent s) (vn dn : List Comp) (version : Nat) (hv : version < 2 ^ 64)
    (fr : Int) (sign : Sign) (hs : Signs sign) (hwf : NameWF vn) (hsz : (encodeComps vn).length < 2 ^ 64) (f : DFields)
    (h : mdMake s vn dn version fr sign = some f) :
    (∃ p, dn = p ++ [⟨32, [109, 101, 116, 97, 100, 97, 116, 97]⟩]) ∧ 0 ≤ fr ∧
    (∃ cv cs, f.name = dn ++ [cv, cs] ∧ Conv.version.to s cv = some version ∧ Conv.segment.to s cs = some 0) ∧
    (f.minfo.freshness : Int) = fr ∧ (∃ g, sign g = (true, f)) ∧ mdDecode s f = some vn := by
  unfold mdMake at h
  split at h
  · cases h
  rename_i hk
  have hk := Decidable.byContradiction hk
  dsimp only at h
  split at h
  · cases h
  rename_i hfr
  split at h
  · rename_i hsg
    injection h with h
    obtain ⟨cv, a1, a3, a2⟩ := C16_roundtrip s .version version hv hc
    obtain ⟨cs, b1, b3, b2⟩ := C16_roundtrip s .segment 0 (by decide) hc
    obtain ⟨p, hp⟩ := List.getLast?_eq_some_iff.1 hk
    have hdn : dn = p ++ [⟨32, [109, 101, 116, 97, 100, 97, 116, 97]⟩] := hp
    rw [a1, b1] at h hsg
    simp only [Option.toList_some] at h hsg
    obtain ⟨s1, s2, s3⟩ := hs ⟨dn ++ [cv] ++ [cs], { MetaInfo.init with freshness := fr.toNat },
      some (binaryBlock 21 (encodeComps vn)), SigInfo.init, none⟩
    rw [h] at s1 s2 s3
    dsimp only at s1 s2 s3
    have hname : f.name = dn ++ [cv, cs] := by rw [s1]; simp
    refine ⟨⟨p, hdn⟩, by omega, ⟨cv, cs, hname, a2, b2⟩, ?_, ⟨_, Prod.ext hsg h⟩, ?_⟩
    · rw [s2]; show (fr.toNat : Int) = fr; omega
    · rw [C70_metadata_exact]
      refine ⟨⟨p, cv, cs, ?_, (convForm_iff s .version cv).1 a3, (convForm_iff s .segment cs).1 b3⟩, ?_, [nameRaw vn], nameRaw vn,
        ⟨_, s3, ?_, ?_, ?_⟩, ⟨[], [], rfl, rfl, by simp⟩, ?_⟩
      · rw [hname, hdn]; simp
      · rw [s2]; rfl
      · show encodeComps vn ≠ []
        have := (nameRaw_wf hsz).length_ge
        rw [nameRaw_wire] at this
        intro he
        rw [he] at this
        simp at this
      · show encodeComps vn = _
        simp [nameRaw_wire]
      · intro e he
        simp only [List.mem_singleton] at he; subst he
        exact nameRaw_wf hsz
      · exact (nameOf_is _ _).1 (nameOf_nameRaw hwf hsz)
  · cases h

/-- **C70**: `makeData` returns if the name ends with the keyword, the freshness period is not negative
and signing succeeds. -/
theorem C70_metadata_make_returns (s : Settings) (vn p : List Comp) (version : Nat) (fr : Int) (sign : Sign) (hfr : 0 ≤ fr)
    (hsg : ∀ g, (sign g).1 = true) :
    (mdMake s vn (p ++ [⟨32, [109, 101, 116, 97, 100, 97, 116, 97]⟩]) version fr sign).isSome = true := by
  unfold mdMake
  rw [if_neg (by simp [mdKeyword])]
  dsimp only
  rw [if_neg (by omega), if_pos (hsg _)]
  rfl

/-- **C70**: the packet made for the name of a discovery Interest satisfies that Interest, whatever its
full name. -/
theorem C70_discovery (s : Settings) (hc : Coherent s) (vn n : List Comp) (version : Nat) (hv : version < 2 ^ 64)
    (fr : Int) (sign : Sign) (hs : Signs sign) (hwf : NameWF vn) (hsz : (encodeComps vn).length < 2 ^ 64) (f : DFields)
    (i : IFields) (full : Option (List Comp)) (h : mdMake s vn (mdInterest i n).name version fr sign = some f) :
    (mdInterest i n).mustBeFresh = true ∧ matchesData (mdInterest i n) f.name full = some true := by
  obtain ⟨-, -, ⟨cv, cs, hname, -⟩, -⟩ := C70_metadata_make s hc vn _ version hv fr sign hs hwf hsz f h
  refine ⟨rfl, ?_⟩
  unfold matchesData
  rw [if_neg (by rw [hname]; simp; omega), if_pos (show (mdInterest i n).canBePrefix = true from rfl), hname]
  simp

/-! ### Instances -/

example : Coherent ⟨false, true, true⟩ ∧ Signs (fun f => (true, { f with sigValue := some (binaryBlock 23 [9]) })) :=
  ⟨rfl, fun _ => ⟨rfl, rfl, rfl⟩⟩

/-- An announcement with a validity period, as a packet that is accepted. -/
example : ∃ pa, paDecode ⟨false, true, true⟩ (fun _ => .badCast) (sampleAnn (nniTlv 109 3600000 ++
    (Validity.wireEncode ⟨0, 951782400, none⟩).1)) = .ok pa ∧ pa.name = [⟨8, [65]⟩] ∧ pa.exp = 3600000 ∧
    pa.validity.map (fun v => (v.notBefore, v.notAfter)) = some (0, 951782400) := by
  refine ⟨_, rfl, by decide +kernel, by decide +kernel, by decide +kernel⟩

/-- A reachable announcement with a packet. -/
example : ∃ pa f, PaReach ⟨false, true, true⟩ (fun _ => .badCast) pa ∧ pa.data = some f ∧ pa.exp = 5 ∧ pa.validity.isSome = true := by
  let pa0 : PA := PA.empty
  have r0 := PaReach.empty (s := ⟨false, true, true⟩) (other := fun _ => .badCast)
  have r1 := PaReach.step (op := .setExp 5) r0 (by show (5 : Int) < 2 ^ 63; decide)
  have r2 := PaReach.step (op := .setValidity (some ⟨0, 951782400, none⟩)) r1 (by
    intro x hx
    injection hx with hx
    subst hx
    exact ⟨by decide, by decide⟩)
  have r3 := PaReach.step (op := .toData 7 (fun f => (true, f))) r2 ⟨by decide, fun _ => ⟨rfl, rfl, rfl⟩⟩
  exact ⟨_, _, r3, rfl, rfl, rfl⟩

/-- Metadata made and read. -/
example : ∃ f, mdMake ⟨false, true, true⟩ [⟨8, [65]⟩, ⟨54, [3]⟩] [⟨8, [65]⟩, mdKeyword] 9 10 (fun f => (true, f)) = some f ∧
    mdDecode ⟨false, true, true⟩ f = some [⟨8, [65]⟩, ⟨54, [3]⟩] := ⟨_, rfl, by decide⟩

end Ndn.Object
