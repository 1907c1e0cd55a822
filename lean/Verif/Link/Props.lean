import Verif.Link.Lemmas
/-
C151: what a Face sends and receives.
-/
namespace Ndn.Link
open Tlv Block Block.Spec Packet Packet.Spec Lp Lp.Spec
open Link.Spec (Real EmptyPolicy sentOctets headerOctets Says NumIn NackIn)

/-! ### Sending -/

/-- The octets handed to the transport are the bare packet, or an LpPacket of the header fields the
packet's tags call for, in order, and the packet. A packet is refused exactly when this is more than
8800 octets, or a Data is tagged with an empty cache policy. -/
theorem C151_sent (n : NetPkt) (hr : Real n) :
    (¬ EmptyPolicy n → (sentOctets n).length ≤ 8800 →
      ∃ b, faceSend n = some b ∧ RawWF b ∧ b.wire = sentOctets n) ∧
    (EmptyPolicy n ∨ 8800 < (sentOctets n).length → faceSend n = none) := by
  have ho := octets_eq n
  constructor
  · intro he hl
    refine ⟨lpOf (hdrElems n) n.wire, ?_, ?_, ho.1⟩
    · rw [send_eq hr he, ho.1, if_neg (by omega)]
    · unfold lpOf
      by_cases h : hdrElems n = []
      · rw [if_pos h]; exact hr.wf
      · rw [if_neg h]
        refine binaryBlock_wf (by decide) (by decide) ?_
        have h1 := ho.1
        unfold lpOf at h1
        rw [if_neg h] at h1
        have h2 : (tlvBytes 100 (((hdrElems n ++ [binaryBlock 80 n.wire.wire]).map Raw.wire).flatten)).length ≤ 8800 := by
          show (binaryBlock 100 _).wire.length ≤ 8800
          rw [h1]; exact hl
        have h3 := tlvBytes_ge 100 (((hdrElems n ++ [binaryBlock 80 n.wire.wire]).map Raw.wire).flatten)
        omega
  · intro h
    by_cases he : EmptyPolicy n
    · exact send_refused he
    · have hl : 8800 < (sentOctets n).length := by
        rcases h with h | h
        · exact absurd h he
        · exact h
      rw [send_eq hr he, ho.1, if_pos hl]

/-! ### Receiving -/

private theorem recv_core {acc : Raw → Bool} {fi fd fn : List Fld} {b : Raw} {p : Pkt}
    (hd : Pkt.init.wireDecode b = (true, p)) :
    receiveWith acc fi fd fn b =
      match netPacket p with
      | none => none
      | some w =>
        if w.type = 5 then
          if acc w then
            if p.count .nack > 0 then
              match p.get noAnn .nack 0 with
              | some (.nack r) => (readTags p fn .none).map (fun t => some ⟨.nack r, w, t⟩)
              | _ => none
            else (readTags p fi .none).map (fun t => some ⟨.interest, w, t⟩)
          else none
        else if w.type = 6 then
          if acc w then (readTags p fd .none).map (fun t => some ⟨.data, w, t⟩) else none
        else some none := by
  unfold receiveWith
  rw [hd]
  rfl

/-- What the elements of an LpPacket say. -/
private def SaysElems (es : List Raw) (n : NetPkt) : Prop :=
  (n.wire.type = if n.kind = .data then 6 else 5) ∧
  n.tags.nextHop = none ∧ n.tags.policy = none ∧
  (∃ e ∈ es, e.type = 80 ∧ e.value = n.wire.wire ∧ RawWF n.wire) ∧
  (match n.kind with
   | .nack r => NackIn es r
   | .interest => ∀ e ∈ es, e.type ≠ 800
   | .data => True) ∧
  NumIn es 812 n.tags.incoming ∧ NumIn es 832 n.tags.congestion

private theorem recv_iff {acc : Raw → Bool} {b : Raw} {p : Pkt} (hd : Pkt.init.wireDecode b = (true, p))
    (hf : Fields p.elems) (n : NetPkt) :
    faceReceive acc b = some (some n) ↔ SaysElems p.elems n ∧ acc n.wire = true := by
  unfold faceReceive
  rw [recv_core hd]
  constructor
  · intro h
    cases hn : netPacket p with
    | none => rw [hn] at h; cases h
    | some w =>
      rw [hn] at h
      have hw := (netPacket_iff hf).mp hn
      simp only at h
      by_cases h5 : w.type = 5
      · rw [if_pos h5] at h
        by_cases ha : acc w = true
        · rw [if_pos ha] at h
          by_cases hc : p.count .nack > 0
          · rw [if_pos hc] at h
            cases hg : p.get noAnn .nack 0 with
            | none => rw [hg] at h; cases h
            | some v =>
              rw [hg] at h
              cases v with
              | nack r =>
                simp only at h
                cases ht : readTags p localFields .none with
                | none => rw [ht] at h; cases h
                | some t =>
                  rw [ht] at h
                  obtain rfl := Option.some.inj (Option.some.inj h)
                  obtain ⟨t1, t2, t3, t4⟩ := (local_iff hf).mp ht
                  exact ⟨⟨by simp [h5], t1, t2, hw, (nack_iff hf).mp ⟨hc, hg⟩, t3, t4⟩, ha⟩
              | _ => cases h
          · rw [if_neg hc] at h
            cases ht : readTags p localFields .none with
            | none => rw [ht] at h; cases h
            | some t =>
              rw [ht] at h
              obtain rfl := Option.some.inj (Option.some.inj h)
              obtain ⟨t1, t2, t3, t4⟩ := (local_iff hf).mp ht
              exact ⟨⟨by simp [h5], t1, t2, hw, fun e he ht => hc (count_pos.mpr ⟨e, he, ht⟩), t3, t4⟩, ha⟩
        · rw [if_neg ha] at h; cases h
      · rw [if_neg h5] at h
        by_cases h6 : w.type = 6
        · rw [if_pos h6] at h
          by_cases ha : acc w = true
          · rw [if_pos ha] at h
            cases ht : readTags p localFields .none with
            | none => rw [ht] at h; cases h
            | some t =>
              rw [ht] at h
              obtain rfl := Option.some.inj (Option.some.inj h)
              obtain ⟨t1, t2, t3, t4⟩ := (local_iff hf).mp ht
              exact ⟨⟨by simp [h6], t1, t2, hw, trivial, t3, t4⟩, ha⟩
          · rw [if_neg ha] at h; cases h
        · rw [if_neg h6] at h; cases h
  · obtain ⟨kind, w, t⟩ := n
    rintro ⟨⟨h1, t1, t2, hw, hk, t3, t4⟩, ha⟩
    simp only at h1 t1 t2 hw hk t3 t4 ha
    rw [(netPacket_iff hf).mpr hw]
    simp only
    have ht := (local_iff hf (t := t)).mpr ⟨t1, t2, t3, t4⟩
    cases kind with
    | interest =>
      have h5 : w.type = 5 := by simpa using h1
      rw [if_pos h5, if_pos ha, if_neg (by
        rw [count_pos]; rintro ⟨e, he, hte⟩; exact hk e he hte), ht]
      rfl
    | data =>
      have h6 : w.type = 6 := by simpa using h1
      rw [if_neg (by omega), if_pos h6, if_pos ha, ht]
      rfl
    | nack r =>
      have h5 : w.type = 5 := by simpa using h1
      obtain ⟨k1, k2⟩ := (nack_iff hf).mpr hk
      rw [if_pos h5, if_pos ha, if_pos k1, k2]
      simp only
      rw [ht]
      rfl

private theorem bare_fields (x : Bytes) : Fields [binaryBlock 80 x] :=
  ⟨by intro e he; obtain rfl := List.mem_singleton.mp he; left; exact fld_known .fragment,
   List.pairwise_singleton _ _⟩

/-- A Face takes an Interest, a Data or a Nack, with an incoming face and a congestion mark, from a block
exactly when the block says so and the Interest or Data in it can be decoded. -/
theorem C151_received (acc : Raw → Bool) (b : Raw) (hb : RawWF b) (hs : b.wire.length < 2 ^ 62) (n : NetPkt) :
    faceReceive acc b = some (some n) ↔ Says b n ∧ acc n.wire = true := by
  by_cases h56 : b.type = 5 ∨ b.type = 6
  · rw [recv_iff (bare_decode .init b h56 (by omega)) (bare_fields _)]
    have hinj : ∀ w : Raw, RawWF w → b.wire = w.wire → w = b := by
      intro w hw hbw
      have h1 := parse_one hw
      have h2 := parse_one hb
      rw [hbw, h1] at h2
      exact (List.cons.inj (Option.some.inj h2)).1
    constructor
    · rintro ⟨⟨h1, t1, t2, ⟨e, he, -, hv, hwf⟩, hk, t3, t4⟩, ha⟩
      obtain rfl := List.mem_singleton.mp he
      refine ⟨⟨h1, t1, t2, .inl ⟨h56, hinj _ hwf hv, ?_, ?_⟩⟩, ha⟩
      · intro r hr
        rw [hr] at hk
        obtain ⟨e, he, ht, -⟩ := hk
        obtain rfl := List.mem_singleton.mp he
        simp [binaryBlock] at ht
      · obtain ⟨k, w, a, b', c, d⟩ := n
        simp only at t1 t2 t3 t4
        subst t1 t2
        have ha : a = none := by
          cases a with
          | none => rfl
          | some x =>
            obtain ⟨e, he, ht, -⟩ := t3
            obtain rfl := List.mem_singleton.mp he
            simp [binaryBlock] at ht
        have hc : c = none := by
          cases c with
          | none => rfl
          | some x =>
            obtain ⟨e, he, ht, -⟩ := t4
            obtain rfl := List.mem_singleton.mp he
            simp [binaryBlock] at ht
        subst ha hc
        rfl
    · rintro ⟨⟨h1, t1, t2, h⟩, ha⟩
      refine ⟨⟨h1, t1, t2, ?_⟩, ha⟩
      rcases h with ⟨-, hw, hk, ht⟩ | ⟨h100, -⟩
      · refine ⟨⟨_, List.mem_singleton.mpr rfl, rfl, by rw [hw]; rfl, by rw [hw]; exact hb⟩, ?_, ?_, ?_⟩
        · cases hkk : n.kind with
          | nack r => exact absurd hkk (hk r)
          | interest => simp [binaryBlock]
          | data => trivial
        · rw [ht]; simp [NumIn, Tags.none, binaryBlock]
        · rw [ht]; simp [NumIn, Tags.none, binaryBlock]
      · omega
  · have h5 : b.type ≠ 5 := fun h => h56 (.inl h)
    have h6 : b.type ≠ 6 := fun h => h56 (.inr h)
    cases hd : Pkt.init.wireDecode b with
    | mk ok p =>
      cases ok with
      | false =>
        have hnone : faceReceive acc b = none := by
          unfold faceReceive receiveWith
          rw [hd]; rfl
        rw [hnone]
        simp only [reduceCtorEq, false_iff]
        rintro ⟨⟨-, -, -, h⟩, -⟩
        rcases h with ⟨h, -⟩ | ⟨h100, es, h1, h2, -⟩
        · exact h56 h
        · rw [(decode_iff .init b _ h5 h6).mpr ⟨h100, es, h1, h2, rfl⟩] at hd
          cases hd
      | true =>
        obtain ⟨h100, es, h1, h2, rfl⟩ := (decode_iff .init b p h5 h6).mp hd
        rw [recv_iff hd h2]
        constructor
        · rintro ⟨⟨k1, t1, t2, k2⟩, ha⟩
          exact ⟨⟨k1, t1, t2, .inr ⟨h100, es, h1, h2, k2⟩⟩, ha⟩
        · rintro ⟨⟨k1, t1, t2, h⟩, ha⟩
          rcases h with ⟨h, -⟩ | ⟨-, es', h1', -, k2⟩
          · exact absurd h h56
          · obtain rfl := readsAs_unique h1 h1'
            exact ⟨⟨k1, t1, t2, k2⟩, ha⟩

/-- A block is ignored without complaint exactly when it is an LpPacket with something else than an
Interest or Data in its fragment. Everything else that is not received is an exception. -/
theorem C151_ignored (acc : Raw → Bool) (b : Raw) (hb : RawWF b) (hs : b.wire.length < 2 ^ 62) :
    faceReceive acc b = some none ↔
      b.type = 100 ∧ ∃ es w, ReadsAs b.value es ∧ Fields es ∧ (∃ e ∈ es, e.type = 80 ∧ e.value = w.wire ∧ RawWF w) ∧
        w.type ≠ 5 ∧ w.type ≠ 6 := by
  have key : ∀ p, Pkt.init.wireDecode b = (true, p) → Fields p.elems →
      (faceReceive acc b = some none ↔ ∃ w, (∃ e ∈ p.elems, e.type = 80 ∧ e.value = w.wire ∧ RawWF w) ∧
        w.type ≠ 5 ∧ w.type ≠ 6) := by
    intro p hd hf
    unfold faceReceive
    rw [recv_core hd]
    constructor
    · intro h
      cases hn : netPacket p with
      | none => rw [hn] at h; cases h
      | some w =>
        rw [hn] at h
        simp only at h
        refine ⟨w, (netPacket_iff hf).mp hn, ?_, ?_⟩
        · intro h5
          rw [if_pos h5] at h
          split at h
          · split at h
            · split at h
              · cases ht : readTags p localFields .none <;> rw [ht] at h <;> simp at h
              · cases h
            · cases ht : readTags p localFields .none <;> rw [ht] at h <;> simp at h
          · cases h
        · intro h6
          rw [if_neg (by omega), if_pos h6] at h
          split at h
          · cases ht : readTags p localFields .none <;> rw [ht] at h <;> simp at h
          · cases h
    · rintro ⟨w, hw, h5, h6⟩
      rw [(netPacket_iff hf).mpr hw]
      simp only
      rw [if_neg h5, if_neg h6]
  by_cases h56 : b.type = 5 ∨ b.type = 6
  · rw [key _ (bare_decode .init b h56 (by omega)) (bare_fields _)]
    constructor
    · rintro ⟨w, ⟨e, he, -, hv, hwf⟩, h5, h6⟩
      obtain rfl := List.mem_singleton.mp he
      have h1 := parse_one hwf
      have h2 := parse_one hb
      have hv' : b.wire = w.wire := hv
      rw [hv', h1] at h2
      obtain rfl := (List.cons.inj (Option.some.inj h2)).1
      rcases h56 with h | h
      · exact absurd h h5
      · exact absurd h h6
    · rintro ⟨h, -⟩; omega
  · have h5 : b.type ≠ 5 := fun h => h56 (.inl h)
    have h6 : b.type ≠ 6 := fun h => h56 (.inr h)
    cases hd : Pkt.init.wireDecode b with
    | mk ok p =>
      cases ok with
      | false =>
        have hnone : faceReceive acc b = none := by
          unfold faceReceive receiveWith
          rw [hd]; rfl
        rw [hnone]
        simp only [reduceCtorEq, false_iff]
        rintro ⟨h100, es, w, h1, h2, -⟩
        rw [(decode_iff .init b _ h5 h6).mpr ⟨h100, es, h1, h2, rfl⟩] at hd
        cases hd
      | true =>
        obtain ⟨h100, es, h1, h2, rfl⟩ := (decode_iff .init b p h5 h6).mp hd
        rw [key _ hd h2]
        constructor
        · rintro ⟨w, hw⟩
          exact ⟨h100, es, w, h1, h2, hw⟩
        · rintro ⟨-, es', w, h1', -, hw⟩
          obtain rfl := readsAs_unique h1 h1'
          exact ⟨w, hw⟩

/-! ### From one face to another -/

private theorem hdr_wf (n : NetPkt) : ∀ e ∈ hdrElems n, RawWF e := by
  intro e he
  unfold hdrElems at he
  rw [List.mem_append] at he
  rcases he with he | he
  · split at he
    · obtain rfl := List.mem_singleton.mp he
      exact binaryBlock_wf (by decide) (by decide) (nniTlv_len _ _ (by decide))
    · exact numB_wf (by decide) (by decide) he
    · split at he
      · simp at he
      · obtain rfl := List.mem_singleton.mp he
        exact binaryBlock_wf (by decide) (by decide) (nniTlv_len _ _ (by decide))
  · exact numB_wf (by decide) (by decide) he

private theorem hdr_fields (n : NetPkt) (x : Bytes) : Fields (hdrElems n ++ [binaryBlock 80 x]) := by
  apply fields_of
  · intro e he
    have := elems_of_header e he
    simp only [List.mem_cons, List.not_mem_nil, or_false] at this ⊢
    omega
  · obtain ⟨kind, wire, inc, nh, cong, pol⟩ := n
    unfold hdrElems
    cases kind <;> cases nh <;> cases pol <;> cases cong <;> simp [numB, binaryBlock]

private theorem rcv_wf (n : NetPkt) : ∀ e ∈ rcvElems n, RawWF e := by
  intro e he
  unfold rcvElems at he
  simp only [List.mem_append] at he
  rcases he with ((he | he) | he) | he
  · split at he
    · obtain rfl := List.mem_singleton.mp he
      exact binaryBlock_wf (by decide) (by decide) (nniTlv_len _ _ (by decide))
    · simp at he
  · exact numB_wf (by decide) (by decide) he
  · split at he
    · exact numB_wf (by decide) (by decide) he
    · simp at he
  · exact numB_wf (by decide) (by decide) he

private theorem rcv_fields (n : NetPkt) (x : Bytes) : Fields (rcvElems n ++ [binaryBlock 80 x]) := by
  obtain ⟨kind, wire, inc, nh, cong, pol⟩ := n
  apply fields_of
  · intro e he
    unfold rcvElems at he
    simp only [List.mem_append] at he
    rcases he with ((he | he) | he) | he
    · split at he
      · obtain rfl := List.mem_singleton.mp he
        simp [binaryBlock]
      · simp at he
    · rw [numB_type he]; decide
    · split at he
      · rw [numB_type he]; decide
      · simp at he
    · rw [numB_type he]; decide
  · unfold rcvElems
    cases kind <;> cases nh <;> cases inc <;> cases cong <;> simp [numB, binaryBlock]

private theorem numB_mem {t : Nat} {o : Option Nat} {e : Raw} : (e ∈ numB t o ∧ e.type = t) ↔ e ∈ numB t o :=
  ⟨fun h => h.1, fun h => ⟨h, numB_type h⟩⟩

private theorem numB_other {t u : Nat} (h : t ≠ u) {o : Option Nat} {e : Raw} : ¬ (e ∈ numB t o ∧ e.type = u) :=
  fun ⟨h1, h2⟩ => h (by rw [← numB_type h1, h2])

/-- The elements of one type among those of a header and a fragment. -/
private theorem hdr_832 (n : NetPkt) (x : Bytes) (e : Raw) :
    (e ∈ hdrElems n ++ [binaryBlock 80 x] ∧ e.type = 832) ↔ e ∈ numB 832 n.tags.congestion := by
  obtain ⟨kind, wire, inc, nh, cong, pol⟩ := n
  constructor
  · rintro ⟨he, ht⟩
    unfold hdrElems at he
    simp only [List.mem_append] at he
    rcases he with (he | he) | he
    · exfalso
      cases kind with
      | interest => rw [numB_type he] at ht; cases ht
      | data =>
        cases pol with
        | none => simp at he
        | some c => obtain rfl := List.mem_singleton.mp he; cases ht
      | nack r => obtain rfl := List.mem_singleton.mp he; cases ht
    · exact he
    · obtain rfl := List.mem_singleton.mp he; cases ht
  · intro he
    refine ⟨?_, numB_type he⟩
    unfold hdrElems
    simp only [List.mem_append]
    exact .inl (.inr he)

private theorem hdr_816 (n : NetPkt) (hk : n.kind = .interest) (x : Bytes) (e : Raw) :
    (e ∈ hdrElems n ++ [binaryBlock 80 x] ∧ e.type = 816) ↔ e ∈ numB 816 n.tags.nextHop := by
  unfold hdrElems
  rw [hk]
  simp only [List.mem_append]
  constructor
  · rintro ⟨(he | he) | he, ht⟩
    · exact he
    · rw [numB_type he] at ht; cases ht
    · obtain rfl := List.mem_singleton.mp he; cases ht
  · intro he
    exact ⟨.inl (.inl he), numB_type he⟩

private theorem hdr_no812 (n : NetPkt) (x : Bytes) : ∀ e ∈ hdrElems n ++ [binaryBlock 80 x], e.type ≠ 812 := by
  intro e he ht
  rw [List.mem_append] at he
  rcases he with he | he
  · have := elems_of_header e he
    rw [ht] at this
    exact absurd this (by decide)
  · obtain rfl := List.mem_singleton.mp he; cases ht

private theorem hdr_nack (n : NetPkt) (hr : ∀ r, n.kind = .nack r → 0 ≤ r ∧ r < 2 ^ 31) (x : Bytes) :
    match n.kind with
    | .nack r => NackIn (hdrElems n ++ [binaryBlock 80 x]) r
    | .interest => ∀ e ∈ hdrElems n ++ [binaryBlock 80 x], e.type ≠ 800
    | .data => True := by
  cases hk : n.kind with
  | data => trivial
  | interest =>
    intro e he ht
    unfold hdrElems at he
    rw [hk] at he
    simp only [List.mem_append] at he
    rcases he with (he | he) | he
    · rw [numB_type he] at ht; cases ht
    · rw [numB_type he] at ht; cases ht
    · obtain rfl := List.mem_singleton.mp he; cases ht
  | nack r =>
    have hd := nack_decode (hr r hk)
    rw [C33_field] at hd
    obtain ⟨-, es, c, h1, h2, h3⟩ := hd
    obtain rfl := Val.nack.inj h2
    refine ⟨binaryBlock 800 (nniTlv 801 r.toNat), ?_, rfl, es, h1, h3⟩
    unfold hdrElems
    rw [hk]
    simp

private theorem real56 {n : NetPkt} (hr : Real n) : n.wire.type = 5 ∨ n.wire.type = 6 := by
  have := hr.type
  split at this
  · exact .inr this
  · exact .inl this

/-- What one Face sends another receives, if they are connected: the same Interest, Data or Nack, with
the same congestion mark and the same reason. The other tags stay behind: next hop and cache policy are
for the forwarder, the incoming face is never sent. -/
theorem C151_transfer (acc : Raw → Bool) (n : NetPkt) (hr : Real n) (ha : acc n.wire = true) (b : Raw)
    (hb : faceSend n = some b) :
    faceReceive acc b = some (some ⟨n.kind, n.wire, ⟨none, none, n.tags.congestion, none⟩⟩) := by
  have he : ¬ EmptyPolicy n := fun h => by rw [send_refused h] at hb; cases hb
  rw [send_eq hr he] at hb
  split at hb
  · cases hb
  · obtain rfl := Option.some.inj hb
    obtain ⟨o, hd⟩ := lp_decode (hdr_fields n _) (hdr_wf n) (real56 hr) (by have := hr.short; omega) .init
    rw [recv_iff hd (hdr_fields n _)]
    refine ⟨⟨hr.type, rfl, rfl, ⟨_, List.mem_append_right _ (List.mem_singleton.mpr rfl), rfl, rfl, hr.wf⟩,
      hdr_nack n hr.reason _, hdr_no812 n _, ?_⟩, ha⟩
    exact numIn_of (f := .congestionMark) (.inr (.inl rfl)) hr.congestion (hdr_832 n _)

/-! ### Dummy faces -/

private theorem rcv_832 (n : NetPkt) (x : Bytes) (e : Raw) :
    (e ∈ rcvElems n ++ [binaryBlock 80 x] ∧ e.type = 832) ↔ e ∈ numB 832 n.tags.congestion := by
  unfold rcvElems
  simp only [List.mem_append]
  constructor
  · rintro ⟨(((he | he) | he) | he) | he, ht⟩
    · exfalso
      split at he
      · obtain rfl := List.mem_singleton.mp he; cases ht
      · simp at he
    · rw [numB_type he] at ht; cases ht
    · exfalso
      split at he
      · rw [numB_type he] at ht; cases ht
      · simp at he
    · exact he
    · obtain rfl := List.mem_singleton.mp he; cases ht
  · intro he
    exact ⟨.inl (.inr he), numB_type he⟩

private theorem rcv_812 (n : NetPkt) (x : Bytes) (e : Raw) :
    (e ∈ rcvElems n ++ [binaryBlock 80 x] ∧ e.type = 812) ↔ e ∈ numB 812 n.tags.incoming := by
  unfold rcvElems
  simp only [List.mem_append]
  constructor
  · rintro ⟨(((he | he) | he) | he) | he, ht⟩
    · exfalso
      split at he
      · obtain rfl := List.mem_singleton.mp he; cases ht
      · simp at he
    · exact he
    · exfalso
      split at he
      · rw [numB_type he] at ht; cases ht
      · simp at he
    · rw [numB_type he] at ht; cases ht
    · obtain rfl := List.mem_singleton.mp he; cases ht
  · intro he
    exact ⟨.inl (.inl (.inl (.inr he))), numB_type he⟩

private theorem rcv_nack (n : NetPkt) (hr : ∀ r, n.kind = .nack r → 0 ≤ r ∧ r < 2 ^ 31) (x : Bytes) :
    match n.kind with
    | .nack r => NackIn (rcvElems n ++ [binaryBlock 80 x]) r
    | .interest => ∀ e ∈ rcvElems n ++ [binaryBlock 80 x], e.type ≠ 800
    | .data => True := by
  cases hk : n.kind with
  | data => trivial
  | interest =>
    intro e he ht
    unfold rcvElems at he
    rw [hk] at he
    simp only [List.mem_append, List.not_mem_nil, false_or] at he
    rcases he with ((he | he) | he) | he
    · rw [numB_type he] at ht; cases ht
    · rw [numB_type he] at ht; cases ht
    · rw [numB_type he] at ht; cases ht
    · obtain rfl := List.mem_singleton.mp he; cases ht
  | nack r =>
    have hd := nack_decode (hr r hk)
    rw [C33_field] at hd
    obtain ⟨-, es, c, h1, h2, h3⟩ := hd
    obtain rfl := Val.nack.inj h2
    refine ⟨binaryBlock 800 (nniTlv 801 r.toNat), ?_, rfl, es, h1, h3⟩
    unfold rcvElems
    rw [hk]
    simp

/-- A packet a test hands to `DummyClientFace::receive` reaches the program under test as it is, with its
incoming face, congestion mark and reason. -/
theorem C151_injected (acc : Raw → Bool) (n : NetPkt) (hr : Real n) (ha : acc n.wire = true) :
    ∃ b, dummyReceive n = some b ∧
      faceReceive acc b = some (some ⟨n.kind, n.wire, ⟨n.tags.incoming, none, n.tags.congestion, none⟩⟩) := by
  refine ⟨_, dummyReceive_eq hr, ?_⟩
  obtain ⟨o, hd⟩ := lp_decode (rcv_fields n _) (rcv_wf n) (real56 hr) (by have := hr.short; omega) .init
  rw [recv_iff hd (rcv_fields n _)]
  refine ⟨⟨hr.type, rfl, rfl, ⟨_, List.mem_append_right _ (List.mem_singleton.mpr rfl), rfl, rfl, hr.wf⟩,
    rcv_nack n hr.reason _, ?_, ?_⟩, ha⟩
  · exact numIn_of (f := .incomingFaceId) (.inl rfl) hr.incoming (rcv_812 n _)
  · exact numIn_of (f := .congestionMark) (.inr (.inl rfl)) hr.congestion (rcv_832 n _)

/-- A test sees every packet the program under test sends: the same packet, with the tags it was sent
with (the next hop of an Interest, the cache policy of a Data, the congestion mark of each). -/
theorem C151_observed (acc : Raw → Bool) (n : NetPkt) (hr : Real n) (ha : acc n.wire = true)
    (hp : n.kind = .data → n.tags.policy = none ∨ n.tags.policy = some 1) (b : Raw) (hb : faceSend n = some b) :
    dummySent acc b = some (some ⟨n.kind, n.wire,
      ⟨none, if n.kind = .interest then n.tags.nextHop else none, n.tags.congestion,
        if n.kind = .data then n.tags.policy else none⟩⟩) := by
  have he : ¬ EmptyPolicy n := fun h => by rw [send_refused h] at hb; cases hb
  rw [send_eq hr he] at hb
  split at hb
  · cases hb
  · obtain rfl := Option.some.inj hb
    have hf := hdr_fields n n.wire.wire
    obtain ⟨o, hd⟩ := lp_decode hf (hdr_wf n) (real56 hr) (by have := hr.short; omega) .init
    unfold dummySent
    rw [recv_core hd, netPacket_of hf (List.mem_append_right _ (List.mem_singleton.mpr rfl)) rfl rfl hr.wf]
    have hn := hdr_nack n hr.reason n.wire.wire
    have hmark : ∀ t : Tags, t.congestion = none →
        readTags ⟨hdrElems n ++ [binaryBlock 80 n.wire.wire], o⟩ [.congestionMark] t =
        some { t with congestion := n.tags.congestion } := by
      intro t ht
      rw [readTags_num hf (.inr (.inl rfl)) hr.congestion (hdr_832 n _)]
      obtain ⟨t1, t2, t3, t4⟩ := t
      simp only at ht
      subst ht
      cases n.tags.congestion <;> rfl
    have htype := hr.type
    simp only
    cases hk : n.kind with
    | interest =>
      rw [hk] at hn htype
      have h5 : n.wire.type = 5 := by simpa using htype
      rw [if_pos h5, if_pos ha, if_neg (by
        rw [count_pos]; rintro ⟨e, he, hte⟩; exact hn e he hte)]
      rw [readTags_num hf (.inr (.inr rfl)) hr.nextHop (hdr_816 n hk _), hmark _ (by cases n.tags.nextHop <;> rfl)]
      cases n.tags.nextHop <;> rfl
    | data =>
      rw [hk] at htype
      have h6 : n.wire.type = 6 := by simpa using htype
      rw [if_neg (by omega), if_pos h6, if_pos ha]
      rcases hp hk with h | h
      · rw [readTags_none, hmark _ rfl, h]
        · rfl
        · intro e he ht
          unfold hdrElems at he
          rw [hk, h] at he
          simp only [List.mem_append, List.not_mem_nil, false_or] at he
          rcases he with he | he
          · rw [numB_type he] at ht; cases ht
          · obtain rfl := List.mem_singleton.mp he; cases ht
      · rw [readTags_some hf (f := .cachePolicy) (by decide) (e := binaryBlock 820 (nniTlv 821 1)) (by
          show _ ∈ hdrElems n ++ _
          unfold hdrElems
          rw [hk, h]
          simp) rfl]
        rw [show decodeField noAnn .cachePolicy (binaryBlock 820 (nniTlv 821 1)) = some (.policy 1) by decide +kernel]
        simp only
        rw [hmark _ rfl, h]
        rfl
    | nack r =>
      rw [hk] at hn htype
      have h5 : n.wire.type = 5 := by simpa using htype
      obtain ⟨k1, k2⟩ := (nack_iff (p := ⟨hdrElems n ++ [binaryBlock 80 n.wire.wire], o⟩) hf).mpr hn
      rw [if_pos h5, if_pos ha, if_pos k1, k2]
      simp only
      rw [hmark _ rfl]
      rfl

/-- A packet sent by one dummy face arrives at a face linked to it: the same packet, with the same
reason and congestion mark. -/
theorem C151_overLink (acc : Raw → Bool) (n : NetPkt) (hr : Real n) (ha : acc n.wire = true)
    (hp : n.kind = .data → n.tags.policy = none ∨ n.tags.policy = some 1) (hs : (sentOctets n).length ≤ 8800) :
    overLink acc n = some (some ⟨n.kind, n.wire, ⟨none, none, n.tags.congestion, none⟩⟩) := by
  have he : ¬ EmptyPolicy n := by
    rintro ⟨h1, h2⟩
    rcases hp h1 with h | h <;> rw [h2] at h <;> cases h
  obtain ⟨b, hb, -⟩ := (C151_sent n hr).1 he hs
  unfold overLink
  rw [hb]
  simp only [Option.bind_some]
  rw [C151_observed acc n hr ha hp b hb]
  simp only
  obtain ⟨b', h1, h2⟩ := C151_injected acc ⟨n.kind, n.wire,
      ⟨none, if n.kind = .interest then n.tags.nextHop else none, n.tags.congestion,
        if n.kind = .data then n.tags.policy else none⟩⟩
    ⟨hr.wf, hr.type, hr.short, by simp, (by
      intro x hx
      simp only at hx
      split at hx
      · exact hr.nextHop x hx
      · cases hx), hr.congestion, (by
      intro x hx
      simp only at hx
      split at hx
      · exact hr.policy x hx
      · cases hx), hr.reason⟩ ha
  rw [h1]
  exact h2

/-! ### Sizes -/

private theorem var_len (n : Nat) : (writeVarNumber n).length ≤ 9 ∧ (n < 253 → (writeVarNumber n).length = 1) ∧
    (n < 65536 → (writeVarNumber n).length ≤ 3) := by
  unfold writeVarNumber
  have hb : ∀ k m, (beBytes k m).length = k := by
    intro k m; simp [beBytes_length]
  split
  · simp; 
  · split
    · refine ⟨by simp [hb], fun h => by omega, by simp [hb]⟩
    · split
      · refine ⟨by simp [hb], fun h => by omega, fun h => by omega⟩
      · refine ⟨by simp [hb], fun h => by omega, fun h => by omega⟩

private theorem tlv_small {t : Nat} {v : Bytes} (ht : t < 65536) (hv : v.length < 253) :
    (tlvBytes t v).length ≤ v.length + 4 := by
  rw [tlvBytes_length, (var_len v.length).2.1 hv]
  have := (var_len t).2.2 ht
  omega

/-- A packet of at most 8768 octets can be sent with any tags (but the empty cache policy): the header
takes no more than 32. -/
theorem C151_size_partial (n : NetPkt) (hr : Real n) (he : ¬ EmptyPolicy n) (hs : n.wire.wire.length ≤ 8768) :
    ∃ b, faceSend n = some b := by
  have hnum : ∀ t o, t < 65536 → (Spec.numField t o).length ≤ 12 := by
    intro t o ht
    cases o with
    | none => simp [Spec.numField]
    | some x =>
      have h1 := wnni_len x
      have h2 := tlv_small (t := t) (v := writeNonNegativeInteger x) ht (by omega)
      show (tlvBytes t (writeNonNegativeInteger x)).length ≤ 12
      omega
  have hnni4 : ∀ x : Int, 0 ≤ x ∧ x < 2 ^ 31 → (writeNonNegativeInteger x.toNat).length ≤ 4 := by
    intro x hx
    have hb : ∀ k m, (beBytes k m).length = k := by
      intro k m; simp [beBytes_length]
    unfold writeNonNegativeInteger
    split
    · simp [hb]
    · split
      · simp [hb]
      · split
        · simp [hb]
        · omega
  have hin : ∀ t u : Nat, ∀ x : Int, t < 65536 → u < 65536 → 0 ≤ x ∧ x < 2 ^ 31 →
      (tlvBytes t (nniTlv u x.toNat)).length ≤ 12 := by
    intro t u x ht hu hx
    have h1 := hnni4 x hx
    have h2 := tlv_small (t := u) (v := writeNonNegativeInteger x.toNat) hu (by omega)
    have h3 := tlv_small (t := t) (v := nniTlv u x.toNat) ht (by
      show (tlvBytes u _).length < 253
      omega)
    have h4 : (nniTlv u x.toNat).length ≤ 8 := by
      show (tlvBytes u _).length ≤ 8
      omega
    omega
  have hh : (headerOctets n).length ≤ 24 := by
    unfold Spec.headerOctets
    rw [List.length_append]
    have h1 := hnum 832 n.tags.congestion (by decide)
    refine Nat.le_trans (Nat.add_le_add_left h1 _) ?_
    apply Nat.add_le_add_right (k := 12) (m := 12)
    split
    · rename_i r hk
      exact hin 800 801 r (by decide) (by decide) (hr.reason r hk)
    · exact hnum 816 _ (by decide)
    · split
      · simp
      · rename_i c hc
        exact hin 820 821 c (by decide) (by decide) (hr.policy c hc)
  obtain ⟨b, hb, -⟩ := (C151_sent n hr).1 he (by
    unfold Spec.sentOctets
    split
    · omega
    · rw [tlvBytes_length, List.length_append, tlvBytes_length]
      have h1 := (var_len 100).2.1 (by decide)
      have h2 := (var_len 80).2.1 (by decide)
      have h3 := (var_len n.wire.wire.length).2.2 (by omega)
      have h4 := (var_len ((headerOctets n).length +
        ((writeVarNumber 80).length + (writeVarNumber n.wire.wire.length).length + n.wire.wire.length))).2.2 (by omega)
      omega)
  exact ⟨b, hb⟩

/-- The claim that a packet no larger than the limit can be sent. -/
def C151_size_claim : Prop :=
  ∀ n : NetPkt, Real n → ¬ EmptyPolicy n → n.wire.wire.length ≤ 8800 → ∃ b, faceSend n = some b

/-- An Interest of 8800 octets, with a congestion mark. -/
private def bigInterest : NetPkt :=
  ⟨.interest, binaryBlock 5 (List.replicate 8796 0), ⟨none, none, some 1, none⟩⟩

/-- An Interest or Data within the limit of 8800 octets is refused as oversized if it carries a tag that
needs a header: the limit is applied to the LpPacket. The program sees an exception from
`expressInterest` or `put` although the packet itself is not too large. -/
theorem C151_size_counterexample : ¬ C151_size_claim := by
  intro h
  have hlen : (List.replicate 8796 (0 : UInt8)).length = 8796 := List.length_replicate
  have hw : bigInterest.wire.wire.length = 8800 := by
    show (tlvBytes 5 (List.replicate 8796 0)).length = 8800
    rw [tlvBytes_length, hlen]
    decide
  have hr : Real bigInterest := by
    refine ⟨binaryBlock_wf (by decide) (by decide) (by rw [hlen]; decide), rfl, by rw [hw]; decide, ?_, ?_, ?_, ?_, ?_⟩
    · intro x hx; cases hx
    · intro x hx; cases hx
    · intro x hx
      obtain rfl : 1 = x := Option.some.inj hx
      decide
    · intro x hx; cases hx
    · intro x hx; cases hx
  obtain ⟨b, hb⟩ := h _ hr (fun hx => by cases hx.1) (by omega)
  rw [(C151_sent _ hr).2 (.inr ?_)] at hb
  · cases hb
  · unfold Spec.sentOctets
    rw [if_neg (by decide)]
    rw [tlvBytes_length, List.length_append, tlvBytes_length]
    have := (var_len 100).2.1 (by decide)
    omega

/-! ### Examples -/

/-- The Interest /A with a nonce. -/
private def exWire : Raw := binaryBlock 5 [7, 3, 8, 1, 65, 10, 4, 1, 2, 3, 4]

/-- It is rejected for lack of a route, with a congestion mark. -/
private def exNack : NetPkt := ⟨.nack 150, exWire, ⟨some 300, none, some 2, none⟩⟩

private def exInterest : NetPkt := ⟨.interest, exWire, ⟨none, some 261, some 1, none⟩⟩

private def exData : NetPkt := ⟨.data, binaryBlock 6 [7, 3, 8, 1, 65, 21, 0], ⟨none, none, none, some 1⟩⟩

private theorem exReal (n : NetPkt) (h : n = exNack ∨ n = exInterest ∨ n = exData) : Real n := by
  rcases h with rfl | rfl | rfl <;>
  exact ⟨binaryBlock_wf (by decide) (by decide) (by decide), by decide, by decide, by
    intro x hx; cases hx <;> decide, by
    intro x hx; cases hx <;> decide, by
    intro x hx; cases hx <;> decide, by
    intro x hx; cases hx <;> decide, by
    intro x hx; cases hx <;> decide⟩

example : Real exNack ∧ Real exInterest ∧ Real exData ∧ ¬ EmptyPolicy exData ∧
    (sentOctets exNack).length ≤ 8800 ∧ (sentOctets exInterest).length ≤ 8800 ∧ (sentOctets exData).length ≤ 8800 :=
  ⟨exReal _ (.inl rfl), exReal _ (.inr (.inl rfl)), exReal _ (.inr (.inr rfl)), (fun h => (by cases h.2)),
    by decide, by decide, by decide⟩

example : (faceSend exInterest).map Raw.wire = some
    [100, 26, 0xfd, 3, 48, 2, 1, 5, 0xfd, 3, 64, 1, 1, 80, 13, 5, 11, 7, 3, 8, 1, 65, 10, 4, 1, 2, 3, 4] := by
  decide +kernel

example : overLink (fun _ => true) exNack = some (some ⟨.nack 150, exWire, ⟨none, none, some 2, none⟩⟩) := by
  decide +kernel

end Ndn.Link
