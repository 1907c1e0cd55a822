import Verif.Lp.Lemmas
/-
Properties of NDNLPv2 packets: C32, C33, C34.
-/
namespace Ndn.Lp
open Tlv Block Block.Spec Packet Packet.Spec Spec

/-! ### Invariant -/

structure Inv (p : Pkt) : Prop where
  fields : Fields p.elems
  wf : ∀ e ∈ p.elems, RawWF e
  wire : ∀ b, p.wire = some b → b.type = 100 ∧ (b.value.length < 2 ^ 64 → RawWF b) ∧ ReadsAs b.value p.elems

theorem encodeField_form {f : Fld} {v : Val} {w : Bytes} (h : encodeField f v = some w) :
    ∃ x, w = tlvBytes f.type x := by
  cases f <;> cases v <;> simp only [encodeField, Option.some.injEq, reduceCtorEq, Option.map_eq_some_iff] at h
  all_goals first
    | exact ⟨_, h.symm⟩
    | (obtain ⟨d, _, hd⟩ := h; exact ⟨_, hd.symm⟩)
    | (split at h
       · cases h
       · exact ⟨_, (Option.some.inj h).symm⟩)

theorem add_cases (p : Pkt) (f : Fld) (v : Val) (hs : ∀ w, encodeField f v = some w → w.length < 2 ^ 64) :
    p.add f v = (false, p) ∨
    ∃ b, RawWF b ∧ b.type = f.type ∧ (b.type = 836 ∨ occ b.type p.elems = []) ∧
      p.add f v = (true, ⟨insertElem b p.elems, none⟩) := by
  unfold Pkt.add
  split
  · exact .inl rfl
  · rename_i hr
    cases he : encodeField f v with
    | none => exact .inl rfl
    | some w =>
      obtain ⟨x, rfl⟩ := encodeField_form he
      have hx : x.length < 2 ^ 64 := Nat.lt_of_le_of_lt (tlvBytes_ge _ _) (hs _ he)
      have ht : 1 ≤ f.type ∧ f.type ≤ 2 ^ 32 - 1 := by cases f <;> decide
      simp only [mk_block ht.1 ht.2 hx]
      refine .inr ⟨binaryBlock f.type x, binaryBlock_wf ht.1 ht.2 hx, rfl, ?_, rfl⟩
      have hr' : ¬ (f.repeatable = false ∧ p.count f > 0) := by simpa using hr
      rw [fld_rep, count_eq] at hr'
      by_cases h : f.type = 836
      · exact .inl h
      · right
        have hl : ¬ (occ f.type p.elems).length > 0 := by
          intro hc; exact hr' ⟨by simp [h], hc⟩
        exact List.eq_nil_of_length_eq_zero (show (occ f.type p.elems).length = 0 by omega)

theorem insert_fields {es : List Raw} (h : Fields es) (b : Raw) (f : Fld) (ht : b.type = f.type)
    (hr : b.type = 836 ∨ occ b.type es = []) : Fields (insertElem b es) := by
  refine ⟨?_, insert_ordered h.2 b hr⟩
  intro e he
  rcases insert_mem.mp he with rfl | he
  · left; rw [ht]; exact fld_known f
  · exact h.1 e he

theorem fields_sublist {es es' : List Raw} (h : Fields es) (hs : es'.Sublist es) : Fields es' :=
  ⟨fun e he => h.1 e (hs.subset he), h.2.sublist hs⟩

theorem inv_init : Inv .init := ⟨⟨by simp [Pkt.init], List.Pairwise.nil⟩, by simp [Pkt.init], by simp [Pkt.init]⟩

theorem inv_add {p : Pkt} (h : Inv p) (f : Fld) (v : Val)
    (hs : ∀ w, encodeField f v = some w → w.length < 2 ^ 64) : Inv (p.add f v).2 := by
  rcases add_cases p f v hs with hx | ⟨b, hb, ht, hr, hx⟩
  · rw [hx]; exact h
  · rw [hx]
    refine ⟨insert_fields h.fields b f ht hr, ?_, by simp⟩
    intro e he
    rcases insert_mem.mp he with rfl | he
    · exact hb
    · exact h.wf e he

theorem inv_clear {p : Pkt} (h : Inv p) (f : Fld) : Inv (p.clear f) :=
  ⟨fields_sublist h.fields List.filter_sublist, fun e he => h.wf e (List.filter_sublist.subset he), by simp [Pkt.clear]⟩

theorem removeNth_spec (t : Nat) (es : List Raw) (i : Nat) :
    (i < (occ t es).length → ∃ es', removeNth t es i = some es' ∧ es'.Sublist es ∧
      ∀ u, occ u es' = if u = t then (occ t es).eraseIdx i else occ u es) ∧
    (¬ i < (occ t es).length → removeNth t es i = none) := by
  induction es generalizing i with
  | nil => simp [removeNth, occ]
  | cons e es ih =>
    have ho : ∀ u (l : List Raw), occ u (e :: l) = if e.type = u then e :: occ u l else occ u l := by
      intro u l; unfold occ; rw [List.filter_cons]; simp
    unfold removeNth
    by_cases h : e.type = t
    · rw [if_pos h, ho t, if_pos h]
      by_cases h0 : i = 0
      · subst h0
        refine ⟨fun _ => ⟨es, rfl, List.sublist_cons_self _ _, ?_⟩, fun hx => absurd (by simp) hx⟩
        intro u
        rw [ho u]
        by_cases hu : u = t
        · subst hu; simp
        · rw [if_neg hu, if_neg (by rw [h]; exact fun x => hu x.symm)]
      · obtain ⟨j, rfl⟩ : ∃ j, i = j + 1 := ⟨i - 1, by omega⟩
        rw [if_neg h0, Nat.add_sub_cancel]
        refine ⟨fun hl => ?_, fun hl => ?_⟩
        · obtain ⟨es', h1, h2, h3⟩ := (ih j).1 (by simpa using hl)
          refine ⟨e :: es', by rw [h1]; rfl, h2.cons_cons _, ?_⟩
          intro u
          rw [ho u, ho u, h3 u]
          by_cases hu : u = t
          · subst hu; simp [h]
          · have hu' : ¬ e.type = u := by rw [h]; exact fun x => hu x.symm
            simp [hu, hu']
        · rw [(ih j).2 (by simpa using hl)]; rfl
    · rw [if_neg h, ho t, if_neg h]
      refine ⟨fun hl => ?_, fun hl => ?_⟩
      · obtain ⟨es', h1, h2, h3⟩ := (ih i).1 hl
        refine ⟨e :: es', by rw [h1]; rfl, h2.cons_cons _, ?_⟩
        intro u
        rw [ho u, ho u, h3 u]
        by_cases hu : u = t
        · subst hu; simp [h]
        · simp [hu]
      · rw [(ih i).2 hl]; rfl

theorem inv_remove {p : Pkt} (h : Inv p) (f : Fld) (i : Nat) : Inv (p.remove f i).2 := by
  unfold Pkt.remove
  cases hr : removeNth f.type p.elems i with
  | none => exact h
  | some es =>
    by_cases hl : i < (occ f.type p.elems).length
    · obtain ⟨es', h1, h2, _⟩ := (removeNth_spec f.type p.elems i).1 hl
      rw [hr] at h1
      obtain rfl := Option.some.inj h1
      exact ⟨fields_sublist h.fields h2, fun e he => h.wf e (h2.subset he), by simp⟩
    · rw [(removeNth_spec f.type p.elems i).2 hl] at hr
      cases hr

theorem flatten_lt_iff {es : List Raw} : ((es.map Raw.wire).flatten).length < 2 ^ 64 →
    ((binaryBlock 100 ((es.map Raw.wire).flatten)).type = 100 ∧
     RawWF (binaryBlock 100 ((es.map Raw.wire).flatten))) :=
  fun h => ⟨rfl, binaryBlock_wf (by decide) (by decide) h⟩

theorem decode_iff (p : Pkt) (b : Raw) (p' : Pkt) : b.type ≠ 5 → b.type ≠ 6 →
    (p.wireDecode b = (true, p') ↔
      b.type = 100 ∧ ∃ es, ReadsAs b.value es ∧ Fields es ∧ p' = ⟨es, some b⟩) := by
  intro h5 h6
  unfold Pkt.wireDecode
  rw [if_neg (by rintro (h | h) <;> contradiction)]
  by_cases h : b.type = 100
  · rw [if_neg (by simpa using h)]
    cases hp : parseElements b.value with
    | none =>
      simp only [Prod.mk.injEq, Bool.false_eq_true, false_and, false_iff]
      rintro ⟨_, es, h1, _⟩
      rw [parseElements_iff.mpr h1] at hp
      cases hp
    | some es =>
      simp only
      have hes := parseElements_iff.mp hp
      split
      · rename_i hc
        simp only [Prod.mk.injEq, true_and, h]
        constructor
        · intro hx; exact ⟨es, hes, (checkFields_none es).mp hc, hx.symm⟩
        · rintro ⟨es', h1, h2, h3⟩
          rw [parseElements_iff.mpr h1] at hp
          rw [h3, Option.some.inj hp]
      · rename_i hc
        simp only [Prod.mk.injEq, Bool.false_eq_true, false_and, false_iff]
        rintro ⟨_, es', h1, h2, _⟩
        rw [parseElements_iff.mpr h1] at hp
        rw [Option.some.inj hp] at h2
        exact hc ((checkFields_none es).mpr h2)
  · simp [h]

theorem bare_decode (p : Pkt) (b : Raw) (h : b.type = 5 ∨ b.type = 6) (hs : b.wire.length < 2 ^ 64) :
    p.wireDecode b = (true, ⟨[binaryBlock 80 b.wire], none⟩) := by
  unfold Pkt.wireDecode
  rw [if_pos h]
  unfold Pkt.add
  rw [if_neg (by simp [Pkt.count, Pkt.init])]
  simp only [encodeField]
  rw [mk_block (by decide) (by decide) hs]
  rfl

/-- A failed decode leaves the packet as it was. -/
theorem decode_fail (p : Pkt) (b : Raw) (hs : b.wire.length < 2 ^ 64) (h : (p.wireDecode b).1 = false) :
    p.wireDecode b = (false, p) := by
  by_cases h56 : b.type = 5 ∨ b.type = 6
  · rw [bare_decode p b h56 hs] at h; cases h
  · unfold Pkt.wireDecode at h ⊢
    rw [if_neg h56] at h ⊢
    split
    · rfl
    · rename_i h100
      rw [if_neg h100] at h
      cases hp : parseElements b.value with
      | none => rfl
      | some es =>
        rw [hp] at h
        simp only at h ⊢
        split
        · rename_i hc; rw [if_pos hc] at h; cases h
        · rfl

theorem inv_decode {p : Pkt} (h : Inv p) {b : Raw} (hb : RawWF b) (hs : b.wire.length < 2 ^ 63) :
    Inv (p.wireDecode b).2 := by
  by_cases h56 : b.type = 5 ∨ b.type = 6
  · rw [bare_decode p b h56 (by omega)]
    refine ⟨⟨?_, List.pairwise_singleton _ _⟩, ?_, by simp⟩
    · intro e he
      obtain rfl := List.mem_singleton.mp he
      left; exact fld_known .fragment
    · intro e he
      obtain rfl := List.mem_singleton.mp he
      exact binaryBlock_wf (by decide) (by decide) (by omega)
  · cases hr : p.wireDecode b with
    | mk ok p' =>
      cases ok with
      | false =>
        have := decode_fail p b (by omega) (by rw [hr])
        rw [hr] at this
        rw [Prod.mk.injEq] at this
        rw [this.2]; exact h
      | true =>
        obtain ⟨h1, es, h2, h3, rfl⟩ := (decode_iff p b p' (fun h => h56 (.inl h)) (fun h => h56 (.inr h))).mp hr
        refine ⟨h3, ?_, ?_⟩
        · exact fun e he => readsAs_mem h2 e he
        · intro b' hb'
          obtain rfl := Option.some.inj hb'
          exact ⟨h1, fun _ => hb, h2⟩


/-- A packet whose only field is a fragment. -/
def Lone (p : Pkt) : Prop := ∃ e, p.elems = [e] ∧ e.type = 80

theorem encode_lone {p : Pkt} {e : Raw} (h : p.elems = [e]) (ht : e.type = 80) :
    p.wireEncode = (match parseElements e.value with
      | none => (.threw, p)
      | some [] => (.undefined, p)
      | some (x :: _) => (.ok x, p)) := by
  unfold Pkt.wireEncode
  rw [show bareElem p.elems = some e by rw [h]; simp [bareElem, ht]]
  simp only
  cases parseElements e.value with
  | none => rfl
  | some l => cases l <;> rfl

theorem encode_other {p : Pkt} (h : ¬ Lone p) :
    p.wireEncode = (match p.wire with
      | some b => (.ok b, p)
      | none => (.ok (binaryBlock 100 ((p.elems.map Raw.wire).flatten)),
          ⟨p.elems, some (binaryBlock 100 ((p.elems.map Raw.wire).flatten))⟩)) := by
  unfold Pkt.wireEncode
  have : bareElem p.elems = none := by
    unfold bareElem
    split
    · rename_i e he
      rw [if_neg (fun ht => h ⟨e, he, ht⟩)]
    · rfl
  rw [this]
  cases p.wire <;> rfl

theorem inv_encode {p : Pkt} (h : Inv p) : Inv p.wireEncode.2 ∧ p.wireEncode.2.elems = p.elems := by
  by_cases hl : Lone p
  · obtain ⟨e, he, ht⟩ := hl
    have : p.wireEncode.2 = p := by
      rw [encode_lone he ht]
      split <;> rfl
    rw [this]; exact ⟨h, rfl⟩
  · rw [encode_other hl]
    cases hw : p.wire with
    | some b => exact ⟨h, rfl⟩
    | none =>
      refine ⟨⟨h.fields, h.wf, ?_⟩, rfl⟩
      intro b hb
      obtain rfl := Option.some.inj hb
      exact ⟨rfl, fun hlt => binaryBlock_wf (by decide) (by decide) hlt, readsAs_of h.wf⟩

theorem inv_step {p : Pkt} (h : Inv p) (op : POp) (hr : OpReal op) : Inv (p.step op).2 := by
  cases op with
  | add f v => exact inv_add h f v hr
  | set f v => exact inv_add (inv_clear h f) f v hr
  | remove f i => exact inv_remove h f i
  | clear f => exact inv_clear h f
  | encode => exact (inv_encode h).1
  | decode b => exact inv_decode h hr.1 hr.2

theorem reach_inv {p : Pkt} (h : Reach p) : Inv p := by
  induction h with
  | init => exact inv_init
  | step op _ hr ih => exact inv_step ih op hr

/-! ### C32: an lp::Packet is a map from fields to lists of values -/

/-- After any history of calls, throwing or not, the fields are in canonical order: header fields by
increasing type, the fragment last, nothing but Ack repeated, nothing unknown but ignorable fields. -/
theorem C32_canonical (p : Pkt) (h : Reach p) : Fields p.elems ∧ ∀ e ∈ p.elems, RawWF e :=
  ⟨(reach_inv h).fields, (reach_inv h).wf⟩

/-- The octets written by `wireEncode` contain the fields in canonical order. -/
theorem C32_encoding (p : Pkt) (h : Reach p) (hl : ¬ Lone p)
    (hs : ((p.elems.map Raw.wire).flatten).length < 2 ^ 64) :
    ∃ b, p.wireEncode.1 = .ok b ∧ b.type = 100 ∧ RawWF b ∧ ReadsAs b.value p.elems := by
  have hi := reach_inv h
  rw [encode_other hl]
  cases hw : p.wire with
  | some b =>
    obtain ⟨h1, h2, h3⟩ := hi.wire b hw
    exact ⟨b, rfl, h1, h2 (by rw [h3.1]; exact hs), h3⟩
  | none => exact ⟨_, rfl, rfl, binaryBlock_wf (by decide) (by decide) hs, readsAs_of hi.wf⟩

/-- Decoding the encoding of a packet gives a packet with the same fields, provided the packet is not
a lone fragment. -/
theorem C32_roundtrip_partial (p q : Pkt) (h : Reach p) (hl : ¬ Lone p)
    (hs : ((p.elems.map Raw.wire).flatten).length < 2 ^ 64) :
    ∃ b q', p.wireEncode.1 = .ok b ∧ q.wireDecode b = (true, q') ∧ q'.elems = p.elems := by
  obtain ⟨b, h1, h2, _, h3⟩ := C32_encoding p h hl hs
  refine ⟨b, ⟨p.elems, some b⟩, h1, ?_, rfl⟩
  rw [decode_iff _ _ _ (by omega) (by omega)]
  exact ⟨h2, _, h3, (reach_inv h).fields, rfl⟩

/-- A value of a lone fragment survives encoding and decoding exactly when it is one Interest or Data. -/
theorem C32_lone_roundtrip_partial (p q : Pkt) (h : Reach p) (e : Raw) (he : p.elems = [e]) (ht : e.type = 80)
    (hs : e.value.length < 2 ^ 64) :
    (∃ b q', p.wireEncode.1 = .ok b ∧ q.wireDecode b = (true, q') ∧
        q'.elems.map (fun x => (x.type, x.value)) = [(80, e.value)]) ↔
      ∃ x : Raw, RawWF x ∧ (x.type = 5 ∨ x.type = 6) ∧ e.value = x.wire := by
  rw [encode_lone he ht]
  cases hp : parseElements e.value with
  | none =>
    simp only [reduceCtorEq, false_and, exists_false, false_iff]
    rintro ⟨x, h1, h2, h3⟩
    rw [h3, parse_one h1] at hp
    cases hp
  | some es =>
    cases es with
    | nil =>
      simp only [reduceCtorEq, false_and, exists_false, false_iff]
      rintro ⟨x, h1, h2, h3⟩
      rw [h3, parse_one h1] at hp
      cases hp
    | cons x xs =>
      have hr := parseElements_iff.mp hp
      have hx : RawWF x := readsAs_mem hr x (List.mem_cons_self ..)
      have hv : e.value = x.wire ++ (xs.map Raw.wire).flatten := by rw [hr.1]; simp
      have hxs : x.wire.length < 2 ^ 64 := by
        have := congrArg List.length hv
        rw [List.length_append] at this
        omega
      simp only [Enc.ok.injEq]
      constructor
      · rintro ⟨b, q', rfl, h2, h3⟩
        by_cases h56 : x.type = 5 ∨ x.type = 6
        · rw [bare_decode q x h56 hxs] at h2
          rw [Prod.mk.injEq] at h2
          rw [← h2.2] at h3
          simp only [binaryBlock, List.map_cons, List.map_nil, List.cons.injEq, Prod.mk.injEq, true_and, and_true] at h3
          exact ⟨x, hx, h56, h3.symm⟩
        · exfalso
          obtain ⟨_, es', h4, h5, rfl⟩ := (decode_iff q x q' (fun h => h56 (.inl h)) (fun h => h56 (.inr h))).mp h2
          simp only at h3
          obtain ⟨y, rfl⟩ : ∃ y, es' = [y] := by
            have hlen := congrArg List.length h3
            simp only [List.length_map, List.length_singleton] at hlen
            exact List.length_eq_one_iff.mp hlen
          simp only [List.map_cons, List.map_nil, List.cons.injEq, Prod.mk.injEq, and_true] at h3
          have hy : RawWF y := readsAs_mem h4 y (List.mem_cons_self ..)
          have l1 : x.value.length < x.wire.length := by
            obtain ⟨t, l, hw, hvt, _, _, _⟩ := hx
            have := VarForm_length_pos hvt
            rw [hw]; simp only [List.length_append]; omega
          have l2 : y.value.length < y.wire.length := by
            obtain ⟨t, l, hw, hvt, _, _, _⟩ := hy
            have := VarForm_length_pos hvt
            rw [hw]; simp only [List.length_append]; omega
          have l3 : x.value.length = y.wire.length := by rw [h4.1]; simp
          have l4 := congrArg List.length hv
          rw [List.length_append] at l4
          rw [h3.2] at l2
          omega
      · rintro ⟨y, h1, h2, h3⟩
        rw [h3, parse_one h1] at hp
        simp only [Option.some.injEq, List.cons.injEq] at hp
        obtain ⟨rfl, _⟩ := hp
        exact ⟨_, _, rfl, bare_decode q y h2 hxs, by simp [binaryBlock, h3]⟩

/-- The full claim: every packet built through the API survives encoding and decoding. -/
def C32_claim : Prop :=
  ∀ p : Pkt, Reach p → ((p.elems.map Raw.wire).flatten).length < 2 ^ 64 →
    ∃ b q', p.wireEncode.1 = .ok b ∧ Pkt.init.wireDecode b = (true, q') ∧ q'.elems = p.elems

/-- It fails: a packet whose only field is a fragment that itself is an LpPacket (here: one carrying a
CongestionMark) is encoded as that inner packet. -/
theorem C32_nested_counterexample : ¬ C32_claim := by
  intro h
  let inner := tlvBytes 100 (nniTlv 832 7)
  have hr : Reach (Pkt.init.step (.add .fragment (.octets inner))).2 := .step _ .init (by
    intro w hw
    have : w = tlvBytes 80 inner := (Option.some.inj hw).symm
    subst this; decide)
  obtain ⟨b, q', h1, h2, h3⟩ := h _ hr (by decide)
  have hb : b = binaryBlock 100 (nniTlv 832 7) := by
    have : (Pkt.init.step (.add .fragment (.octets inner))).2.wireEncode.1 =
      .ok (binaryBlock 100 (nniTlv 832 7)) := by decide
    rw [this] at h1
    exact (Enc.ok.inj h1).symm
  subst hb
  have : Pkt.init.wireDecode (binaryBlock 100 (nniTlv 832 7)) =
    (true, ⟨[binaryBlock 832 (writeNonNegativeInteger 7)], some (binaryBlock 100 (nniTlv 832 7))⟩) := by decide
  rw [this, Prod.mk.injEq] at h2
  rw [← h2.2] at h3
  revert h3
  decide

/-- Encoding can fail on a packet every call of whose construction succeeded: octets that are not a
TLV throw, an empty fragment makes `wireEncode` read the front of an empty vector, and octets after
the first TLV are lost. -/
theorem C32_encode_counterexample :
    (Pkt.init.add .fragment (.octets [5])).1 = true ∧
    (Pkt.init.add .fragment (.octets [5])).2.wireEncode.1 = .threw ∧
    (Pkt.init.add .fragment (.octets [])).1 = true ∧
    (Pkt.init.add .fragment (.octets [])).2.wireEncode.1 = .undefined ∧
    (Pkt.init.add .fragment (.octets [5, 0, 5, 0])).2.wireEncode.1 = .ok ⟨5, [5, 0], []⟩ := by decide

/-! #### The multimap -/

/-- `p` holds the values `m`. -/
def Holds (pa : Raw → Bool) (p : Pkt) (m : MMap) : Prop :=
  ∀ f, (occ f.type p.elems).map (decodeField pa f) = (m f).map some

theorem holds_iff {pa : Raw → Bool} {p : Pkt} {m : MMap} : Holds pa p m ↔ ∀ f, p.list pa f = some (m f) :=
  forall_congr' fun _ => listOf_eq.symm

theorem holds_length {pa : Raw → Bool} {p : Pkt} {m : MMap} (h : Holds pa p m) (f : Fld) :
    (occ f.type p.elems).length = (m f).length := by
  have := congrArg List.length (h f)
  simpa using this

theorem eraseIdx_map' {α β : Type} (g : α → β) (l : List α) (i : Nat) :
    (l.map g).eraseIdx i = (l.eraseIdx i).map g := by
  induction l generalizing i with
  | nil => rfl
  | cons a l ih => cases i <;> simp [ih]

theorem step_refines {pa : Raw → Bool} {p : Pkt} {m : MMap} (hi : Fields p.elems) (h : Holds pa p m) (op : POp)
    (ho : OpOk pa op) :
    match mmapStep m op with
    | none => p.step op = (false, p)
    | some m' => (p.step op).1 = true ∧ Fields (p.step op).2.elems ∧ Holds pa (p.step op).2 m' := by
  -- adding
  have hadd : ∀ (p : Pkt) (m : MMap) (f : Fld) (v : Val), Fields p.elems → Holds pa p m → ValOk pa f v →
      (f = .ack ∨ m f = []) →
      (p.add f v).1 = true ∧ Fields (p.add f v).2.elems ∧
        Holds pa (p.add f v).2 (fun g => if g = f then m f ++ [v] else m g) := by
    intro p m f v hi h hv hc
    obtain ⟨w, b, h1, h2, h3, h4, h5⟩ := field_roundtrip hv
    have hcount : f = .ack ∨ p.count f = 0 := by
      rcases hc with hc | hc
      · exact .inl hc
      · right; rw [count_eq, holds_length h f, hc]; rfl
    have hocc : b.type = 836 ∨ occ b.type p.elems = [] := by
      rcases hcount with hc | hc
      · left; rw [h3, hc]; rfl
      · right; rw [count_eq] at hc; rw [h3]; exact List.eq_nil_of_length_eq_zero hc
    have hx : p.add f v = (true, ⟨insertElem b p.elems, none⟩) := by
      unfold Pkt.add
      rw [if_neg (by
        rw [fld_rep']
        rcases hcount with hc | hc
        · simp [hc]
        · simp [hc])]
      simp only [h1, h2]
      unfold insertElem
      rw [h3]
    rw [hx]
    refine ⟨rfl, insert_fields hi b f h3 hocc, ?_⟩
    intro g
    simp only [occ_insert hi.2]
    by_cases hg : g = f
    · subst hg
      rw [if_pos h3.symm]
      simp [h g, h5]
    · rw [if_neg (by rw [h3, fld_type_inj]; exact hg)]
      simp [hg, h g]
  have hclear : ∀ f, Fields (p.clear f).elems ∧ Holds pa (p.clear f) (fun g => if g = f then [] else m g) := by
    intro f
    refine ⟨fields_sublist hi List.filter_sublist, ?_⟩
    intro g
    unfold Pkt.clear occ
    rw [List.filter_filter]
    by_cases hg : g = f
    · subst hg
      simp
    · have hne : g.type ≠ f.type := fun x => hg (fld_type_inj.mp x)
      simp only [hg, if_false]
      rw [← h g]
      congr 1
      unfold occ
      apply List.filter_congr
      intro x _
      by_cases hx : x.type = g.type
      · simp [hx, hne]
      · simp [hx]
  cases op with
  | add f v =>
    simp only [mmapStep]
    by_cases hc : f ≠ .ack ∧ m f ≠ []
    · simp only [hc, ne_eq, not_false_eq_true, and_self, if_true]
      show p.add f v = (false, p)
      unfold Pkt.add
      rw [if_pos]
      rw [fld_rep', count_eq, holds_length h f]
      have : 0 < (m f).length := List.length_pos_iff.mpr hc.2
      simp [hc.1, this]
    · rw [if_neg hc]
      exact hadd p m f v hi h ho (by
        by_cases hf : f = .ack
        · exact .inl hf
        · right
          by_cases hm : m f = []
          · exact hm
          · exact absurd ⟨hf, hm⟩ hc)
  | set f v =>
    simp only [mmapStep]
    have := hadd (p.clear f) _ f v (hclear f).1 (hclear f).2 ho (.inr (by simp))
    refine ⟨this.1, this.2.1, ?_⟩
    have h3 := this.2.2
    have heq : (fun g => if g = f then (if f = f then [] else m f) ++ [v] else if g = f then [] else m g) =
        (fun g => if g = f then [v] else m g) := by
      funext g
      by_cases hg : g = f <;> simp [hg]
    rw [heq] at h3
    exact h3
  | remove f i =>
    simp only [mmapStep]
    have hspec := removeNth_spec f.type p.elems i
    rw [holds_length h f] at hspec
    split
    · rename_i hn
      split at hn
      · cases hn
      · rename_i hl
        show p.remove f i = _
        unfold Pkt.remove
        rw [hspec.2 hl]
    · rename_i m' hn
      split at hn
      · rename_i hl
        obtain rfl := Option.some.inj hn
        obtain ⟨es', h1, h2, h3⟩ := hspec.1 hl
        have hx : p.step (.remove f i) = (true, ⟨es', none⟩) := by
          show p.remove f i = _
          unfold Pkt.remove
          rw [h1]
        rw [hx]
        refine ⟨rfl, fields_sublist hi h2, ?_⟩
        intro g
        simp only [h3]
        by_cases hg : g = f
        · subst hg
          simp only [if_true]
          rw [← eraseIdx_map', h g, eraseIdx_map']
        · rw [if_neg (by rw [fld_type_inj]; exact hg)]
          simp [hg, h g]
      · cases hn
  | clear f => exact ⟨rfl, hclear f⟩
  | encode =>
    simp only [mmapStep]
    have hel : p.wireEncode.2.elems = p.elems := by
      by_cases hl : Lone p
      · obtain ⟨e, he, ht⟩ := hl
        rw [encode_lone he ht]
        split <;> rfl
      · rw [encode_other hl]
        cases p.wire <;> rfl
    refine ⟨rfl, ?_, ?_⟩
    · show Fields p.wireEncode.2.elems
      rw [hel]; exact hi
    · intro g
      show (occ g.type p.wireEncode.2.elems).map _ = _
      rw [hel]; exact h g
  | decode b => exact absurd ho (by simp [OpOk])

/-- Refinement: from a packet holding the values `m`, any sequence of `add`, `set`, `remove`, `clear`
and `wireEncode` calls reports what the same calls on the map report, and ends in a packet holding
what the map holds. -/
theorem C32_refines (pa : Raw → Bool) (p : Pkt) (m : MMap) (hr : Reach p) (h : ∀ f, p.list pa f = some (m f))
    (ops : List POp) (ho : ∀ op ∈ ops, OpOk pa op) :
    (pktRun p ops).1 = (mmapRun m ops).1 ∧ ∀ f, (pktRun p ops).2.list pa f = some ((mmapRun m ops).2 f) := by
  have hi := (reach_inv hr).fields
  clear hr
  rw [← holds_iff] at h ⊢
  induction ops generalizing p m with
  | nil => exact ⟨rfl, h⟩
  | cons op ops ih =>
    have hs := step_refines hi h op (ho op (List.mem_cons_self ..))
    have ho' : ∀ op ∈ ops, OpOk pa op := fun x hx => ho x (List.mem_cons_of_mem _ hx)
    unfold pktRun mmapRun
    cases hm : mmapStep m op with
    | none =>
      rw [hm] at hs
      simp only at hs ⊢
      rw [hs]
      have := ih p m h ho' hi
      exact ⟨by rw [this.1], this.2⟩
    | some m' =>
      rw [hm] at hs
      simp only at hs ⊢
      have := ih _ m' hs.2.2 ho' hs.2.1
      exact ⟨by rw [this.1, hs.1], this.2⟩

/-- `has`, `count`, `get` and `list` agree on every packet whose values can be read. -/
theorem C32_accessors (pa : Raw → Bool) (p : Pkt) (f : Fld) (l : List Val) (h : p.list pa f = some l) :
    p.count f = l.length ∧ ∀ i, p.get pa f i = l[i]? := by
  have hm := listOf_eq.mp h
  refine ⟨?_, ?_⟩
  · rw [count_eq]
    have := congrArg List.length hm
    simpa using this
  · intro i
    unfold Pkt.get
    rw [nthOf_eq]
    have := congrArg (fun x => x[i]?) hm
    simp only [List.getElem?_map] at this
    cases ho : (occ f.type p.elems)[i]? with
    | none =>
      rw [ho] at this
      cases hl : l[i]? with
      | none => rfl
      | some v => rw [hl] at this; cases this
    | some b =>
      rw [ho] at this
      simp only [Option.map_some] at this
      simp only [Option.bind_some]
      cases hl : l[i]? with
      | none => rw [hl] at this; cases this
      | some v => rw [hl] at this; exact Option.some.inj this

/-- A field that cannot be encoded leaves `set` half done: the old value is gone. -/
theorem C32_set_counterexample :
    let p := (Pkt.init.add .cachePolicy (.policy 1)).2
    p.count .cachePolicy = 1 ∧ (p.set .cachePolicy (.policy 0)).1 = false ∧
      (p.set .cachePolicy (.policy 0)).2.count .cachePolicy = 0 := by decide

-- the hypotheses are satisfiable
example : (pktRun .init [.add .ack (.num 7), .add .fragment (.octets [1]), .add .ack (.num 8), .add .sequence (.num 9),
    .add .sequence (.num 10), .remove .ack 0]).1 = [true, true, true, true, false, true] := by decide

example : ∀ op ∈ ([.add .ack (.num 7), .add .fragment (.octets [1]), .set .nack (.nack 50)] : List POp),
    OpOk (fun _ => true) op := by simp [OpOk, ValOk]

example : ((Pkt.init.add .fragment (.octets [1])).2.add .ack (.num 7)).2.elems.map Raw.type = [836, 80] := by decide

-- a reachable packet that is not a lone fragment, and one that is
example : Reach ((Pkt.init.step (.add .fragment (.octets [5, 0]))).2.step (.add .ack (.num 7))).2 ∧
    ¬ Lone ((Pkt.init.step (.add .fragment (.octets [5, 0]))).2.step (.add .ack (.num 7))).2 := by
  refine ⟨.step _ (.step _ .init ?_) ?_, ?_⟩
  · intro w hw
    obtain rfl : w = tlvBytes 80 [5, 0] := (Option.some.inj hw).symm
    decide
  · intro w hw
    obtain rfl : w = tlvBytes 836 (beBytes 8 7) := (Option.some.inj hw).symm
    decide
  · rintro ⟨e, he, _⟩
    have := congrArg List.length he
    rw [List.length_singleton] at this
    revert this
    decide

example : ∃ e : Raw, (Pkt.init.step (.add .fragment (.octets [5, 0]))).2.elems = [e] ∧ e.type = 80 ∧ e.value = [5, 0] :=
  ⟨⟨80, [80, 2, 5, 0], [5, 0]⟩, by decide, rfl, rfl⟩

/-! ### C33: decoding -/

/-- Decoding accepts exactly well-formed field sequences, and keeps them as they are. -/
theorem C33_decode (p : Pkt) (b : Raw) (p' : Pkt) (h5 : b.type ≠ 5) (h6 : b.type ≠ 6) :
    p.wireDecode b = (true, p') ↔
      b.type = 100 ∧ ∃ es, ReadsAs b.value es ∧ (∀ e ∈ es, e.type ∈ known ∨ CanIgnore e.type) ∧ Ordered es ∧
        p' = ⟨es, some b⟩ := by
  rw [decode_iff p b p' h5 h6]
  simp only [Fields, and_assoc]

/-- A bare Interest or Data is a packet whose only field is a fragment holding it. -/
theorem C33_bare (pa : Raw → Bool) (p : Pkt) (b : Raw) (hb : RawWF b) (h : b.type = 5 ∨ b.type = 6)
    (hs : b.wire.length < 2 ^ 64) :
    (p.wireDecode b).1 = true ∧ ∀ f, (p.wireDecode b).2.list pa f =
      some (if f = .fragment then [.octets b.wire] else []) := by
  rw [bare_decode p b h hs]
  refine ⟨rfl, ?_⟩
  intro f
  have hne : b.wire ≠ [] := hb.ne_nil
  unfold Pkt.list
  rw [listOf_eq]
  by_cases hf : f = .fragment
  · subst hf
    simp [occ, binaryBlock, Fld.type, decodeField, hne]
  · have : f.type ≠ 80 := fun hx => hf ((fld_type_inj (g := .fragment)).mp hx)
    have h' : ¬ (80 = f.type) := fun x => this x.symm
    simp [occ, binaryBlock, h', hf]

/-- A decode that throws leaves the packet unchanged. -/
theorem C33_failure (p : Pkt) (b : Raw) (hs : b.wire.length < 2 ^ 64) (h : (p.wireDecode b).1 = false) :
    (p.wireDecode b).2 = p := by rw [decode_fail p b hs h]

/-- Re-encoding a decoded packet gives the octets received, except for a lone fragment. -/
theorem C33_reencode (p p' : Pkt) (b : Raw) (h5 : b.type ≠ 5) (h6 : b.type ≠ 6)
    (h : p.wireDecode b = (true, p')) (hl : ¬ Lone p') : p'.wireEncode.1 = .ok b := by
  obtain ⟨_, es, _, _, rfl⟩ := (decode_iff p b p' h5 h6).mp h
  rw [encode_other hl]

/-- An ignorable unknown field does not change what is read of the others. -/
theorem C33_ignored (pa : Raw → Bool) (pre post : List Raw) (x : Raw) (hx : x.type ∉ known) (f : Fld) :
    listOf pa f (pre ++ x :: post) = listOf pa f (pre ++ post) := by
  have hne : ¬ x.type = f.type := fun h => hx (h ▸ fld_known f)
  induction pre with
  | nil => simp [listOf, hne]
  | cons e es ih =>
    simp only [List.cons_append, listOf, ih]

theorem readAs_iff (mx : Nat) (v : Bytes) (n : Nat) :
    readNniValueAs mx v = some n ↔ Tlv.Spec.NniForm v n ∧ n ≤ mx := by
  unfold readNniValueAs
  cases h : readNniValue v with
  | none =>
    simp only [reduceCtorEq, false_iff]
    rintro ⟨h1, _⟩
    rw [readNniValue_iff.mpr h1] at h
    cases h
  | some m =>
    have hm := readNniValue_iff.mp h
    simp only
    split
    · simp only [reduceCtorEq, false_iff]
      rintro ⟨h1, h2⟩
      rw [readNniValue_iff.mpr h1] at h
      have := Option.some.inj h
      omega
    · rw [Option.some.injEq]
      constructor
      · rintro rfl; exact ⟨hm, by omega⟩
      · rintro ⟨h1, _⟩
        rw [readNniValue_iff.mpr h1] at h
        exact (Option.some.inj h).symm

/-- Reading a field: `get` returns a value exactly when the block has the form of that field with that
value, and throws otherwise. -/
theorem C33_field (pa : Raw → Bool) (f : Fld) (b : Raw) (v : Val) :
    decodeField pa f b = some v ↔ FieldForm pa f b v := by
  unfold decodeField FieldForm
  by_cases ht : b.type = f.type
  · rw [if_neg (by simpa using ht)]
    simp only [ht, true_and]
    have hseq : (if b.value.length = 8 then some (Val.num (beNat b.value)) else none) = some v ↔
        ∃ n, n < 2 ^ 64 ∧ b.value = beBytes 8 n ∧ v = .num n := by
      constructor
      · intro h
        split at h
        · rename_i hl
          refine ⟨beNat b.value, ?_, ?_, (Option.some.inj h).symm⟩
          · have := beNat_lt b.value
            rw [hl] at this
            simpa using this
          · rw [← hl, beBytes_beNat]
        · cases h
      · rintro ⟨n, hn, hv, rfl⟩
        rw [hv, if_pos (by simp [beBytes_length]), beNat_beBytes_of_lt (by omega)]
    have hnni : (readNniValue b.value).map Val.num = some v ↔ ∃ n, Tlv.Spec.NniForm b.value n ∧ v = .num n := by
      rw [Option.map_eq_some_iff]
      constructor
      · rintro ⟨n, h1, h2⟩; exact ⟨n, readNniValue_iff.mp h1, h2.symm⟩
      · rintro ⟨n, h1, h2⟩; exact ⟨n, readNniValue_iff.mpr h1, h2.symm⟩
    have hoct : (if b.value = [] then none else some (Val.octets b.value)) = some v ↔
        b.value ≠ [] ∧ v = .octets b.value := by
      split
      · rename_i h; simp [h]
      · rename_i h; simp [h, eq_comm]
    cases f
    case fragment => exact hoct
    case pitToken => exact hoct
    case sequence => exact hseq
    case ack => exact hseq
    case txSequence => exact hseq
    case fragIndex => exact hnni
    case fragCount => exact hnni
    case nextHopFaceId => exact hnni
    case incomingFaceId => exact hnni
    case congestionMark => exact hnni
    case nonDiscovery =>
      simp only
      split
      · rename_i h; simp [h, eq_comm]
      · rename_i h; simp [h]
    case nack =>
      simp only [Option.map_eq_some_iff]
      have hkey : ∀ c, nackDecode b = some c ↔ ∃ es, ReadsAs b.value es ∧ ((es = [] ∧ c = 0) ∨
          ∃ e tl, es = e :: tl ∧ e.type = 801 ∧ ∃ n : Nat, Tlv.Spec.NniForm e.value n ∧ n < 2 ^ 31 ∧ c = n) := by
        intro c
        unfold nackDecode
        cases hp : parseElements b.value with
        | none =>
          simp only [reduceCtorEq, false_iff]
          rintro ⟨es, h1, _⟩
          rw [parseElements_iff.mpr h1] at hp; cases hp
        | some es =>
          have hr := parseElements_iff.mp hp
          cases es with
          | nil =>
            simp only [Option.some.injEq]
            constructor
            · intro h; exact ⟨[], hr, .inl ⟨rfl, h.symm⟩⟩
            · rintro ⟨es, h1, h2⟩
              obtain rfl := readsAs_unique hr h1
              rcases h2 with h2 | ⟨e, tl, h2, _⟩
              · exact h2.2.symm
              · cases h2
          | cons e tl =>
            simp only
            constructor
            · intro h
              split at h
              · rename_i h801
                obtain ⟨n, h1, h2⟩ := Option.map_eq_some_iff.mp h
                obtain ⟨h3, h4⟩ := (readAs_iff _ _ _).mp h1
                exact ⟨_, hr, .inr ⟨e, tl, rfl, h801, n, h3, by omega, h2.symm⟩⟩
              · cases h
            · rintro ⟨es, h1, h2⟩
              obtain rfl := readsAs_unique hr h1
              rcases h2 with h2 | ⟨e', tl', h2, h3, n, h4, h5, rfl⟩
              · cases h2.1
              · simp only [List.cons.injEq] at h2
                obtain ⟨rfl, rfl⟩ := h2
                rw [if_pos h3, (readAs_iff (2 ^ 31 - 1) e.value n).mpr ⟨h4, by omega⟩]
                rfl
      constructor
      · rintro ⟨c, h1, h2⟩
        obtain ⟨es, h3, h4⟩ := (hkey c).mp h1
        exact ⟨es, c, h3, h2.symm, h4⟩
      · rintro ⟨es, c, h3, h2, h4⟩
        exact ⟨c, (hkey c).mpr ⟨es, h3, h4⟩, h2.symm⟩
    case cachePolicy =>
      simp only
      unfold policyDecode
      cases hp : parseElements b.value with
      | none =>
        simp only [Option.map_none, reduceCtorEq, false_iff]
        rintro ⟨_, e, tl, h1, _⟩
        rw [parseElements_iff.mpr h1] at hp; cases hp
      | some es =>
        have hr := parseElements_iff.mp hp
        cases es with
        | nil =>
          simp only [Option.map_none, reduceCtorEq, false_iff]
          rintro ⟨_, e, tl, h1, _⟩
          rw [parseElements_iff.mpr h1] at hp; cases hp
        | cons e tl =>
          simp only [Option.map_eq_some_iff]
          constructor
          · rintro ⟨c, h1, h2⟩
            split at h1
            · rename_i h821
              cases hn : readNniValueAs (2 ^ 31 - 1) e.value with
              | none => rw [hn] at h1; cases h1
              | some n =>
                rw [hn] at h1
                simp only at h1
                split at h1
                · rename_i h1n
                  subst h1n
                  have := (readAs_iff _ _ _).mp hn
                  refine ⟨?_, e, tl, hr, h821, this.1⟩
                  rw [← h2, ← Option.some.inj h1]
                · cases h1
            · cases h1
          · rintro ⟨rfl, e', tl', h1, h2, h3⟩
            have := readsAs_unique hr h1
            simp only [List.cons.injEq] at this
            obtain ⟨rfl, rfl⟩ := this
            refine ⟨1, ?_, rfl⟩
            rw [if_pos h2, (readAs_iff (2 ^ 31 - 1) e.value 1).mpr ⟨h3, by omega⟩]
            rfl
    case prefixAnn =>
      simp only [Option.map_eq_some_iff]
      unfold annDecode
      constructor
      · rintro ⟨d, h1, h2⟩
        cases hp : parseElements b.value with
        | none => rw [hp] at h1; cases h1
        | some es =>
          rw [hp] at h1
          simp only at h1
          have hr := parseElements_iff.mp hp
          cases hf : es.find? (fun e => decide (e.type = 6)) with
          | none => rw [hf] at h1; cases h1
          | some d' =>
            rw [hf] at h1
            simp only at h1
            split at h1
            · rename_i hpa
              obtain rfl := Option.some.inj h1
              obtain ⟨hd, pre, post, rfl, hpre⟩ := List.find?_eq_some_iff_append.mp hf
              exact ⟨pre, d', post, hr, by simpa using hpre, by simpa using hd, hpa, h2.symm⟩
            · cases h1
      · rintro ⟨pre, d, post, h1, h2, h3, h4, rfl⟩
        refine ⟨d, ?_, rfl⟩
        rw [parseElements_iff.mpr h1]
        have : (pre ++ d :: post).find? (fun e => decide (e.type = 6)) = some d :=
          List.find?_eq_some_iff_append.mpr ⟨by simpa using h3, pre, post, rfl, by simpa using h2⟩
        simp only [this, h4, if_true]
  · simp [ht]

example : decodeField (fun _ => true) .ack ⟨836, [], [0, 0, 0, 0, 0, 0, 0, 7]⟩ = some (.num 7) ∧
    decodeField (fun _ => true) .ack ⟨836, [], [7]⟩ = none ∧ decodeField (fun _ => true) .fragment ⟨80, [], []⟩ = none := by decide

example : (Pkt.init.wireDecode (binaryBlock 100 (tlvBytes 804 [1] ++ tlvBytes 836 (beBytes 8 1) ++
    tlvBytes 836 (beBytes 8 1) ++ tlvBytes 80 [9]))).1 = true := by decide

example : (Pkt.init.wireDecode (binaryBlock 100 (tlvBytes 80 [9] ++ tlvBytes 836 (beBytes 8 1)))).1 = false ∧
    (Pkt.init.wireDecode (binaryBlock 100 (nniTlv 832 1 ++ nniTlv 832 1))).1 = false ∧
    (Pkt.init.wireDecode (binaryBlock 100 (nniTlv 801 1))).1 = false := by decide

/-! ### C34: Nack severity -/

/-- "Less severe" is a strict total order on reason codes. -/
theorem C34_strict_total (x y z : Int) :
    isLessSevere x x = false ∧
    (isLessSevere x y = true → isLessSevere y z = true → isLessSevere x z = true) ∧
    (x ≠ y → (isLessSevere x y = true ∧ isLessSevere y x = false) ∨
      (isLessSevere y x = true ∧ isLessSevere x y = false)) := by
  have h : ∀ a b : Int, isLessSevere a b = true ↔ a ≠ 0 ∧ (b = 0 ∨ a < b) := by
    intro a b
    unfold isLessSevere
    by_cases ha : a = 0
    · simp [ha]
    · by_cases hb : b = 0
      · simp [ha, hb]
      · simp [ha, hb]
  have hf : ∀ a b : Int, isLessSevere a b = false ↔ ¬ (a ≠ 0 ∧ (b = 0 ∨ a < b)) := by
    intro a b
    rw [← h]; simp
  refine ⟨?_, ?_, ?_⟩
  · rw [hf]; omega
  · rw [h, h, h]; omega
  · intro hne
    rw [h, h, hf, hf]
    omega

/-- No reason (0) is more severe than every other; among the others a smaller code is less severe. -/
theorem C34_order (x y : Int) (hx : x ≠ 0) (hy : y ≠ 0) :
    isLessSevere x 0 = true ∧ isLessSevere 0 x = false ∧ (isLessSevere x y = true ↔ x < y) := by
  unfold isLessSevere
  simp [hx, hy]

/-- The reason codes read from a Nack header on the wire: codes below 2^31 are accepted and an
unrecognised one reads as no reason; larger codes make decoding throw. -/
theorem C34_unknown_partial (n : Nat) (hn : n < 2 ^ 64) :
    (nackDecode (binaryBlock 800 (nniTlv 801 n))).map getReason =
      if n < 2 ^ 31 then some (if n = 50 ∨ n = 100 ∨ n = 150 then (n : Int) else 0) else none := by
  have hp := parse_one (e := binaryBlock 801 (writeNonNegativeInteger n)) (binaryBlock_wf (by decide) (by decide) (nni_len_lt n))
  unfold nackDecode
  rw [show (binaryBlock 800 (nniTlv 801 n)).value = (binaryBlock 801 (writeNonNegativeInteger n)).wire from rfl, hp]
  simp only [show (binaryBlock 801 (writeNonNegativeInteger n)).type = 801 from rfl, if_true]
  rw [show (binaryBlock 801 (writeNonNegativeInteger n)).value = writeNonNegativeInteger n from rfl]
  by_cases h : n < 2 ^ 31
  · rw [readNniAs_write (by omega) hn, if_pos h]
    simp only [Option.map_some, getReason]
    congr 1
    by_cases hc : n = 50 ∨ n = 100 ∨ n = 150
    · rw [if_pos hc, if_pos (by simp only [Int.ofNat_eq_natCast]; omega)]; rfl
    · rw [if_neg hc, if_neg (by simp only [Int.ofNat_eq_natCast]; omega)]
  · rw [if_neg h]
    unfold readNniValueAs
    rw [readNniValue_write hn]
    simp only
    rw [if_pos (by omega)]
    rfl

/-- The full claim: an unrecognised reason code reads as no reason. -/
def C34_claim : Prop :=
  ∀ n : Nat, n < 2 ^ 64 → n ≠ 50 → n ≠ 100 → n ≠ 150 →
    (nackDecode (binaryBlock 800 (nniTlv 801 n))).map getReason = some 0

/-- It fails for codes that do not fit in an `int`. -/
theorem C34_unknown_counterexample : ¬ C34_claim := by
  intro h
  have h1 := h (2 ^ 31) (by decide) (by decide) (by decide) (by decide)
  rw [C34_unknown_partial _ (by decide)] at h1
  revert h1
  decide

/-- A reason set by the application is the reason read back after encoding and decoding. -/
theorem C34_roundtrip (c : Int) (h0 : 0 ≤ c) (h1 : c < 2 ^ 31) :
    ∃ w b, encodeField .nack (.nack c) = some w ∧ fromRange w true = some b ∧
      (nackDecode b).map getReason = some (getReason c) := by
  obtain ⟨w, b, a1, a2, a3, _, a5⟩ := field_roundtrip (pa := fun _ => true) (f := .nack) (v := .nack c) ⟨h0, h1⟩
  refine ⟨w, b, a1, a2, ?_⟩
  unfold decodeField at a5
  rw [if_neg (by simp [a3])] at a5
  simp only [Option.map_eq_some_iff, Val.nack.injEq] at a5
  obtain ⟨c', h2, rfl⟩ := a5
  rw [h2]; rfl

/-- A Nack without a reason element has no reason. -/
theorem C34_absent (b : Raw) (h : b.value = []) : (nackDecode b).map getReason = some 0 := by
  unfold nackDecode
  rw [h]
  decide

/-- PIT tokens of 1 to 32 octets, and no others, are accepted. -/
theorem C34_pitToken (b : Bytes) : pitTokenValid b = true ↔ 1 ≤ b.length ∧ b.length ≤ 32 := by
  unfold pitTokenValid
  rw [Bool.not_eq_true', Bool.or_eq_false_iff, decide_eq_false_iff_not, decide_eq_false_iff_not]
  omega

end Ndn.Lp
