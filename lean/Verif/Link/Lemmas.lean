import Verif.Link.Spec
import Verif.Lp.Props
/-
Lemmas on the packets between a Face and its forwarder.
-/
namespace Ndn.Link
open Tlv Block Block.Spec Packet Packet.Spec Lp Lp.Spec

/-! ### Building -/

theorem takeWhile_all {α : Type} {q : α → Bool} : ∀ {l : List α}, (∀ e ∈ l, q e = true) → l.takeWhile q = l
  | [], _ => rfl
  | a :: l, h => by
    rw [List.takeWhile_cons, if_pos (h a (by simp)), takeWhile_all (fun e he => h e (by simp [he]))]

theorem dropWhile_all {α : Type} {q : α → Bool} : ∀ {l : List α}, (∀ e ∈ l, q e = true) → l.dropWhile q = []
  | [], _ => rfl
  | a :: l, h => by
    rw [List.dropWhile_cons, if_pos (h a (by simp)), dropWhile_all (fun e he => h e (by simp [he]))]

theorem addField_ok {f : Fld} {v : Val} {x : Bytes} {p : Pkt} (he : encodeField f v = some (tlvBytes f.type x))
    (hx : x.length < 2 ^ 64) (hc : ∀ e ∈ p.elems, e.type ≠ f.type) :
    addField f v p = some ⟨insertElem (binaryBlock f.type x) p.elems, none⟩ := by
  have ht : 1 ≤ f.type ∧ f.type ≤ 2 ^ 32 - 1 := by cases f <;> decide
  have hc0 : p.count f = 0 := by
    unfold Pkt.count
    rw [List.countP_eq_zero]
    intro e hm; simp [hc e hm]
  have : p.add f v = (true, ⟨insertElem (binaryBlock f.type x) p.elems, none⟩) := by
    unfold Pkt.add
    rw [if_neg (by simp [hc0]), he]
    simp only
    rw [mk_block ht.1 ht.2 hx]
    rfl
  unfold addField
  rw [this]; rfl

/-- The element of a number field. -/
def numB (t : Nat) : Option Nat → List Raw
  | none => []
  | some n => [binaryBlock t (writeNonNegativeInteger n)]

theorem wnni_len (n : Nat) : (writeNonNegativeInteger n).length ≤ 8 := by
  have : ∀ k m, (beBytes k m).length = k := by
    intro k m; simp [beBytes_length]
  unfold writeNonNegativeInteger
  split
  · simp [this]
  · split
    · simp [this]
    · split <;> simp [this]

theorem frag_last (x : Bytes) (es : List Raw) : insertElem (binaryBlock 80 x) es = es ++ [binaryBlock 80 x] := by
  rw [insertElem_eq]
  have : ∀ e : Raw, (!before (info (binaryBlock 80 x).type) (info e.type)) = true := by
    intro e
    cases h : before (info (binaryBlock 80 x).type) (info e.type) with
    | false => rfl
    | true =>
      have := (before_iff _ _).mp h
      exact absurd rfl this.1
  rw [takeWhile_all (fun e _ => this e),
    dropWhile_all (fun e _ => this e)]

/-- The elements of the header. -/
def hdrElems (n : NetPkt) : List Raw :=
  (match n.kind with
   | .nack r => [binaryBlock 800 (nniTlv 801 r.toNat)]
   | .interest => numB 816 n.tags.nextHop
   | .data => match n.tags.policy with
     | none => []
     | some c => [binaryBlock 820 (nniTlv 821 c.toNat)]) ++
  numB 832 n.tags.congestion

theorem toU64_nat {c : Int} (h : 0 ≤ c ∧ c < 2 ^ 31) : toU64 c = c.toNat := by
  unfold toU64
  rw [Int.emod_eq_of_lt h.1 (by omega)]

theorem header_eq {n : NetPkt} (hr : Spec.Real n) (he : ¬ Spec.EmptyPolicy n) :
    header n = some ⟨hdrElems n, none⟩ := by
  obtain ⟨kind, wire, inc, nh, cong, pol⟩ := n
  have hmark : ∀ (p : Pkt), (∀ e ∈ p.elems, e.type < 832 ∧ e.type ≠ 80) → p.wire = none →
      addTag .congestionMark (cong.map .num) p = some ⟨p.elems ++ numB 832 cong, none⟩ := by
    intro p hp hw
    cases cong with
    | none =>
      obtain ⟨es, w⟩ := p
      simp only at hw
      subst hw
      simp [addTag, numB]
    | some c =>
      simp only [Option.map_some, addTag]
      rw [addField_ok (x := writeNonNegativeInteger c) rfl (by have := wnni_len c; omega)
        (fun e hm => by have := hp e hm; show e.type ≠ 832; omega)]
      rw [insertElem_eq]
      have h : ∀ e ∈ p.elems, (!before (info (binaryBlock Fld.congestionMark.type (writeNonNegativeInteger c)).type)
          (info e.type)) = true := by
        intro e hm
        cases hb : before (info (binaryBlock Fld.congestionMark.type (writeNonNegativeInteger c)).type) (info e.type) with
        | false => rfl
        | true =>
          have h1 := (before_iff _ _).mp hb
          have h2 := hp e hm
          have h3 : (binaryBlock Fld.congestionMark.type (writeNonNegativeInteger c)).type = 832 := rfl
          omega
      rw [takeWhile_all h, dropWhile_all h]
      rfl
  unfold header hdrElems
  cases kind with
  | interest =>
    cases nh with
    | none => exact hmark .init (by simp [Pkt.init]) rfl
    | some h =>
      simp only [Option.map_some, addTag]
      rw [addField_ok (x := writeNonNegativeInteger h) rfl (by have := wnni_len h; omega) (by simp [Pkt.init])]
      exact hmark _ (by intro e hm; obtain rfl := List.mem_singleton.mp hm; simp [binaryBlock, Fld.type]) rfl
  | data =>
    cases pol with
    | none => exact hmark .init (by simp [Pkt.init]) rfl
    | some c =>
      have hc : c ≠ 0 := fun h0 => he ⟨rfl, by rw [h0]⟩
      have hp := hr.policy c rfl
      simp only [Option.map_some, addTag]
      rw [addField_ok (x := nniTlv 821 c.toNat) (by
        show (if c = 0 then none else some (tlvBytes 820 (nniTlv 821 (toU64 c)))) = _
        rw [if_neg hc, toU64_nat hp]; rfl) (nniTlv_len _ _ (by decide)) (by simp [Pkt.init])]
      exact hmark _ (by intro e hm; obtain rfl := List.mem_singleton.mp hm; simp [binaryBlock, Fld.type]) rfl
  | nack r =>
    have hp := hr.reason r rfl
    simp only
    rw [addField_ok (x := nniTlv 801 r.toNat) (by
      show some (tlvBytes 800 (nniTlv 801 (toU64 r))) = _
      rw [toU64_nat hp]; rfl) (nniTlv_len _ _ (by decide)) (by simp [Pkt.init])]
    exact hmark _ (by intro e hm; obtain rfl := List.mem_singleton.mp hm; simp [binaryBlock, Fld.type]) rfl

/-- The block with this header and this packet. -/
def lpOf (hdr : List Raw) (w : Raw) : Raw :=
  if hdr = [] then w else binaryBlock 100 (((hdr ++ [binaryBlock 80 w.wire]).map Raw.wire).flatten)

theorem encode_lp {hdr : List Raw} {w : Raw} (hw : RawWF w) (o : Pkt)
    (ho : o = ⟨hdr ++ [binaryBlock 80 w.wire], none⟩) : encode o = some (lpOf hdr w) := by
  subst ho
  unfold encode lpOf
  by_cases h : hdr = []
  · subst h
    rw [if_pos rfl, encode_lone (e := binaryBlock 80 w.wire) rfl rfl]
    show (match (match parseElements w.wire with
      | none => ((.threw, _) : Enc × Pkt)
      | some [] => (.undefined, _)
      | some (x :: _) => (.ok x, _)).1 with
      | .ok b => some b
      | _ => none) = _
    rw [parse_one hw]
  · rw [if_neg h, encode_other (by
      rintro ⟨e, he, _⟩
      cases hdr with
      | nil => exact h rfl
      | cons a l => simp at he)]

theorem elems_of_header {n : NetPkt} : ∀ e ∈ hdrElems n, e.type ∈ [800, 816, 820, 832] := by
  obtain ⟨kind, wire, inc, nh, cong, pol⟩ := n
  unfold hdrElems
  intro e he
  rw [List.mem_append] at he
  rcases he with he | he
  · cases kind with
    | interest => cases nh with
      | none => simp [numB] at he
      | some x => obtain rfl := List.mem_singleton.mp he; simp [binaryBlock]
    | data => cases pol with
      | none => simp at he
      | some x => obtain rfl := List.mem_singleton.mp he; simp [binaryBlock]
    | nack r => obtain rfl := List.mem_singleton.mp he; simp [binaryBlock]
  · cases cong with
    | none => simp [numB] at he
    | some x => obtain rfl := List.mem_singleton.mp he; simp [binaryBlock]

theorem send_eq {n : NetPkt} (hr : Spec.Real n) (he : ¬ Spec.EmptyPolicy n) :
    faceSend n = if 8800 < (lpOf (hdrElems n) n.wire).wire.length then none else some (lpOf (hdrElems n) n.wire) := by
  unfold faceSend finishEncoding
  rw [header_eq hr he]
  simp only [Option.bind_some]
  by_cases h : hdrElems n = []
  · rw [h, List.isEmpty_nil, if_pos rfl]
    unfold lpOf
    rw [if_pos rfl]
    rfl
  · rw [if_neg (by rw [List.isEmpty_iff]; exact h)]
    rw [addField_ok (x := n.wire.wire) rfl (by have := hr.short; omega) (by
      intro e hm h80
      have := elems_of_header e hm
      rw [h80] at this
      exact absurd this (by decide))]
    simp only [Option.bind_some]
    rw [show Fld.fragment.type = 80 from rfl, frag_last, encode_lp hr.wf _ rfl]
    rfl

theorem send_refused {n : NetPkt} (he : Spec.EmptyPolicy n) : faceSend n = none := by
  obtain ⟨kind, wire, inc, nh, cong, pol⟩ := n
  obtain ⟨h1, h2⟩ := he
  simp only at h1 h2
  subst h1 h2
  rfl

theorem octets_eq (n : NetPkt) : (lpOf (hdrElems n) n.wire).wire = Spec.sentOctets n ∧
    (hdrElems n = [] ↔ Spec.headerOctets n = []) ∧ ((hdrElems n).map Raw.wire).flatten = Spec.headerOctets n := by
  have hh : ((hdrElems n).map Raw.wire).flatten = Spec.headerOctets n := by
    obtain ⟨kind, wire, inc, nh, cong, pol⟩ := n
    unfold hdrElems Spec.headerOctets
    rw [List.map_append, List.flatten_append]
    congr 1
    · cases kind with
      | interest => cases nh <;> simp [numB, Spec.numField, binaryBlock, nniTlv]
      | data => cases pol <;> simp [binaryBlock]
      | nack r => simp [binaryBlock]
    · cases cong <;> simp [numB, Spec.numField, binaryBlock, nniTlv]
  have h0 : hdrElems n = [] ↔ Spec.headerOctets n = [] := by
    rw [← hh]
    constructor
    · intro h; rw [h]; rfl
    · intro h
      rw [List.flatten_eq_nil_iff] at h
      apply List.eq_nil_iff_forall_not_mem.mpr
      intro e hm
      have h1 := h _ (List.mem_map_of_mem hm)
      have h2 : ∃ t x, e = binaryBlock t x := by
        obtain ⟨kind, wire, inc, nh, cong, pol⟩ := n
        unfold hdrElems at hm
        rw [List.mem_append] at hm
        rcases hm with hm | hm
        · cases kind with
          | interest => cases nh with
            | none => simp [numB] at hm
            | some x => exact ⟨_, _, List.mem_singleton.mp hm⟩
          | data => cases pol with
            | none => simp at hm
            | some x => exact ⟨_, _, List.mem_singleton.mp hm⟩
          | nack r => exact ⟨_, _, List.mem_singleton.mp hm⟩
        · cases cong with
          | none => simp [numB] at hm
          | some x => exact ⟨_, _, List.mem_singleton.mp hm⟩
      obtain ⟨t, x, rfl⟩ := h2
      have h3 : (tlvBytes t x).length = 0 := by
        show (binaryBlock t x).wire.length = 0
        rw [h1]; rfl
      rw [tlvBytes_length] at h3
      have h4 : (writeVarNumber t).length ≠ 0 := by
        unfold writeVarNumber
        split
        · simp
        · split
          · simp
          · split <;> simp
      omega
  refine ⟨?_, h0, hh⟩
  unfold lpOf Spec.sentOctets
  by_cases h : hdrElems n = []
  · rw [if_pos h, if_pos (h0.mp h)]
  · rw [if_neg h, if_neg (fun hc => h (h0.mpr hc))]
    show tlvBytes 100 _ = _
    rw [List.map_append, List.flatten_append, hh]
    simp [binaryBlock]

/-! ### Reading -/

theorem count_pos {p : Pkt} {f : Fld} : p.count f > 0 ↔ ∃ e ∈ p.elems, e.type = f.type := by
  unfold Pkt.count
  rw [gt_iff_lt, List.countP_pos_iff]
  simp

theorem occ_one {es : List Raw} (hf : Fields es) {t : Nat} (h836 : t ≠ 836) {e : Raw} (he : e ∈ es) (ht : e.type = t) :
    occ t es = [e] := by
  have hpw : (occ t es).Pairwise (fun a b => Rel a.type b.type) := hf.2.sublist List.filter_sublist
  have hall : ∀ x ∈ occ t es, x.type = t := by
    intro x hx
    unfold occ at hx
    simpa using (List.mem_filter.mp hx).2
  have hmem : e ∈ occ t es := by
    unfold occ
    exact List.mem_filter.mpr ⟨he, by simp [ht]⟩
  cases hl : occ t es with
  | nil => rw [hl] at hmem; simp at hmem
  | cons a l =>
    cases l with
    | nil =>
      rw [hl] at hmem
      rw [List.mem_singleton.mp hmem]
    | cons b l =>
      exfalso
      rw [hl] at hpw hall
      have h1 := (List.pairwise_cons.mp hpw).1 b (by simp)
      have ha := hall a (by simp)
      have hb := hall b (by simp)
      rw [ha, hb] at h1
      unfold Rel at h1
      omega

theorem get_one {p : Pkt} (hf : Fields p.elems) {f : Fld} (h836 : f.type ≠ 836) {e : Raw} (he : e ∈ p.elems)
    (ht : e.type = f.type) : p.get noAnn f 0 = decodeField noAnn f e := by
  unfold Pkt.get
  rw [nthOf_eq, occ_one hf h836 he ht]
  rfl

theorem readTags_none {p : Pkt} {f : Fld} {fs : List Fld} {t : Tags} (h : ∀ e ∈ p.elems, e.type ≠ f.type) :
    readTags p (f :: fs) t = readTags p fs t := by
  rw [readTags, if_neg]
  rw [count_pos]
  rintro ⟨e, h1, h2⟩
  exact h e h1 h2

theorem readTags_some {p : Pkt} (hf : Fields p.elems) {f : Fld} {fs : List Fld} {t : Tags} (h836 : f.type ≠ 836)
    {e : Raw} (he : e ∈ p.elems) (ht : e.type = f.type) :
    readTags p (f :: fs) t = match decodeField noAnn f e with
      | none => none
      | some v => readTags p fs (t.put f v) := by
  rw [readTags, if_pos (count_pos.mpr ⟨e, he, ht⟩), get_one hf h836 he ht]
  rfl

theorem netPacket_of {p : Pkt} (hf : Fields p.elems) {e w : Raw} (he : e ∈ p.elems) (ht : e.type = 80)
    (hv : e.value = w.wire) (hw : RawWF w) : netPacket p = some w := by
  unfold netPacket
  rw [get_one (f := .fragment) hf (by decide) he ht, decodeField, if_neg (by simp [ht, Fld.type])]
  have hne : e.value ≠ [] := by
    rw [hv]
    intro h
    have := parse_one hw
    rw [h] at this
    cases this
  rw [if_neg hne, hv]
  exact fromRange_iff.mpr ⟨rfl, hw⟩

theorem netPacket_iff {p : Pkt} (hf : Fields p.elems) {w : Raw} :
    netPacket p = some w ↔ ∃ e ∈ p.elems, e.type = 80 ∧ e.value = w.wire ∧ RawWF w := by
  constructor
  · intro h
    unfold netPacket at h
    cases hg : p.get noAnn .fragment 0 with
    | none => rw [hg] at h; cases h
    | some v =>
      rw [hg] at h
      have hg' := hg
      unfold Pkt.get at hg'
      rw [nthOf_eq] at hg'
      cases ho : (occ Fld.fragment.type p.elems)[0]? with
      | none => rw [ho] at hg'; cases hg'
      | some e =>
        rw [ho, Option.bind_some] at hg'
        have hm : e ∈ p.elems ∧ e.type = 80 := by
          have := List.mem_of_getElem? ho
          unfold occ at this
          have h := List.mem_filter.mp this
          exact ⟨h.1, of_decide_eq_true h.2⟩
        obtain ⟨-, h2⟩ := (C33_field noAnn .fragment e v).mp hg'
        simp only at h2
        obtain ⟨-, rfl⟩ := h2
        simp only at h
        obtain ⟨h3, h4⟩ := fromRange_iff.mp h
        refine ⟨e, hm.1, hm.2, h3.symm, ?_⟩
        unfold RawWF
        rw [h3]; exact h4
  · rintro ⟨e, h1, h2, h3, h4⟩
    exact netPacket_of hf h1 h2 h3 h4

theorem nack_iff {p : Pkt} (hf : Fields p.elems) {r : Int} :
    (p.count .nack > 0 ∧ p.get noAnn .nack 0 = some (.nack r)) ↔ Spec.NackIn p.elems r := by
  constructor
  · rintro ⟨h1, h2⟩
    obtain ⟨e, he, ht⟩ := count_pos.mp h1
    rw [get_one hf (by decide) he ht, C33_field] at h2
    obtain ⟨-, es, c, h3, h4, h5⟩ := h2
    obtain rfl := Val.nack.inj h4
    exact ⟨e, he, ht, es, h3, h5⟩
  · rintro ⟨e, he, ht, xs, h3, h5⟩
    refine ⟨count_pos.mpr ⟨e, he, ht⟩, ?_⟩
    rw [get_one (f := .nack) hf (by decide) he ht, C33_field]
    exact ⟨ht, xs, r, h3, rfl, h5⟩

theorem num_form {f : Fld} (hf : f = .incomingFaceId ∨ f = .congestionMark ∨ f = .nextHopFaceId) {e : Raw} {v : Val} :
    decodeField noAnn f e = some v ↔ e.type = f.type ∧ ∃ n, Tlv.Spec.NniForm e.value n ∧ v = .num n := by
  rw [C33_field]
  rcases hf with rfl | rfl | rfl <;> exact Iff.rfl

theorem mark_iff {p : Pkt} (hf : Fields p.elems) {t t' : Tags} :
    readTags p [.congestionMark] t = some t' ↔
      (∃ o, Spec.NumIn p.elems 832 o ∧ t' = (match o with | none => t | some n => { t with congestion := some n })) := by
  by_cases h : ∃ e ∈ p.elems, e.type = Fld.congestionMark.type
  · obtain ⟨e, he, ht⟩ := h
    rw [readTags_some hf (by decide) he ht]
    cases hd : decodeField noAnn .congestionMark e with
    | none =>
      simp only [reduceCtorEq, false_iff]
      rintro ⟨o, ho, -⟩
      cases o with
      | none => exact ho e he ht
      | some n =>
        obtain ⟨e', he', ht', hn⟩ := ho
        have : e' = e := by
          have h1 := occ_one hf (by decide) he ht
          have h2 := occ_one hf (t := Fld.congestionMark.type) (by decide) he' ht'
          rw [h1] at h2
          exact (List.cons.inj h2).1.symm
        subst this
        rw [(num_form (.inr (.inl rfl))).mpr ⟨ht, n, hn, rfl⟩] at hd
        cases hd
    | some v =>
      obtain ⟨-, n, hn, rfl⟩ := (num_form (.inr (.inl rfl))).mp hd
      simp only [readTags, Tags.put, Option.some.injEq]
      constructor
      · rintro rfl
        exact ⟨some n, ⟨e, he, ht, hn⟩, rfl⟩
      · rintro ⟨o, ho, rfl⟩
        cases o with
        | none => exact absurd ht (ho e he)
        | some m =>
          obtain ⟨e', he', ht', hm⟩ := ho
          have : e' = e := by
            have h1 := occ_one hf (by decide) he ht
            have h2 := occ_one hf (t := Fld.congestionMark.type) (by decide) he' ht'
            rw [h1] at h2
            exact (List.cons.inj h2).1.symm
          subst this
          have h1 := (num_form (f := .congestionMark) (.inr (.inl rfl))).mpr ⟨ht, n, hn, rfl⟩
          have h2 := (num_form (f := .congestionMark) (.inr (.inl rfl))).mpr ⟨ht, m, hm, rfl⟩
          rw [h1] at h2
          cases h2; rfl
  · rw [readTags_none (fun e he ht => h ⟨e, he, ht⟩)]
    simp only [readTags, Option.some.injEq]
    constructor
    · rintro rfl
      exact ⟨none, fun e he ht => h ⟨e, he, ht⟩, rfl⟩
    · rintro ⟨o, ho, rfl⟩
      cases o with
      | none => rfl
      | some n =>
        obtain ⟨e, he, ht, -⟩ := ho
        exact absurd ⟨e, he, ht⟩ h

theorem local_iff {p : Pkt} (hf : Fields p.elems) {t : Tags} :
    readTags p localFields .none = some t ↔
      t.nextHop = none ∧ t.policy = none ∧ Spec.NumIn p.elems 812 t.incoming ∧ Spec.NumIn p.elems 832 t.congestion := by
  have fin : ∀ i : Option Nat, (∃ o, Spec.NumIn p.elems 832 o ∧
      t = (match o with
        | none => (⟨i, none, none, none⟩ : Tags)
        | some n => { (⟨i, none, none, none⟩ : Tags) with congestion := some n })) ↔
      t.incoming = i ∧ t.nextHop = none ∧ t.policy = none ∧ Spec.NumIn p.elems 832 t.congestion := by
    intro i
    constructor
    · rintro ⟨o, ho, rfl⟩
      cases o <;> exact ⟨rfl, rfl, rfl, ho⟩
    · obtain ⟨a, b, c, d⟩ := t
      rintro ⟨h1, h2, h3, h4⟩
      simp only at h1 h2 h3 h4
      subst h1 h2 h3
      exact ⟨c, h4, by cases c <;> rfl⟩
  unfold localFields
  by_cases h : ∃ e ∈ p.elems, e.type = Fld.incomingFaceId.type
  · obtain ⟨e, he, ht⟩ := h
    rw [readTags_some hf (by decide) he ht]
    have huniq : ∀ e' ∈ p.elems, e'.type = 812 → e' = e := by
      intro e' he' ht'
      have h1 := occ_one hf (by decide) he ht
      have h2 := occ_one hf (t := Fld.incomingFaceId.type) (by decide) he' ht'
      rw [h1] at h2
      exact (List.cons.inj h2).1.symm
    cases hd : decodeField noAnn .incomingFaceId e with
    | none =>
      simp only [reduceCtorEq, false_iff]
      rintro ⟨-, -, ho, -⟩
      cases hi : t.incoming with
      | none => rw [hi] at ho; exact ho e he ht
      | some n =>
        rw [hi] at ho
        obtain ⟨e', he', ht', hn⟩ := ho
        obtain rfl := huniq e' he' ht'
        rw [(num_form (.inl rfl)).mpr ⟨ht, n, hn, rfl⟩] at hd
        cases hd
    | some v =>
      obtain ⟨-, n, hn, rfl⟩ := (num_form (.inl rfl)).mp hd
      simp only [Tags.put]
      rw [mark_iff hf]
      rw [show ({ Tags.none with incoming := some n } : Tags) = ⟨some n, none, none, none⟩ from rfl, fin]
      constructor
      · rintro ⟨h1, h2, h3, h4⟩
        refine ⟨h2, h3, ?_, h4⟩
        rw [h1]; exact ⟨e, he, ht, hn⟩
      · rintro ⟨h1, h2, h3, h4⟩
        refine ⟨?_, h1, h2, h4⟩
        cases hi : t.incoming with
        | none => rw [hi] at h3; exact absurd ht (h3 e he)
        | some m =>
          rw [hi] at h3
          obtain ⟨e', he', ht', hm⟩ := h3
          obtain rfl := huniq e' he' ht'
          have h1 := (num_form (f := .incomingFaceId) (.inl rfl)).mpr ⟨ht, n, hn, rfl⟩
          have h2 := (num_form (f := .incomingFaceId) (.inl rfl)).mpr ⟨ht, m, hm, rfl⟩
          rw [h1] at h2
          cases h2; rfl
  · rw [readTags_none (fun e he ht => h ⟨e, he, ht⟩), mark_iff hf]
    rw [show Tags.none = ⟨none, none, none, none⟩ from rfl, fin]
    constructor
    · rintro ⟨h1, h2, h3, h4⟩
      refine ⟨h2, h3, ?_, h4⟩
      rw [h1]; exact fun e he ht => h ⟨e, he, ht⟩
    · rintro ⟨h1, h2, h3, h4⟩
      refine ⟨?_, h1, h2, h4⟩
      cases hi : t.incoming with
      | none => rfl
      | some n =>
        rw [hi] at h3
        obtain ⟨e, he, ht, -⟩ := h3
        exact absurd ⟨e, he, ht⟩ h

/-- The elements of `lpOf`. -/
theorem lp_decode {hdr : List Raw} {w : Raw} (hf : Fields (hdr ++ [binaryBlock 80 w.wire]))
    (hwf : ∀ e ∈ hdr, RawWF e) (h56 : w.type = 5 ∨ w.type = 6) (hs : w.wire.length < 2 ^ 64) (p : Pkt) :
    ∃ o, p.wireDecode (lpOf hdr w) = (true, ⟨hdr ++ [binaryBlock 80 w.wire], o⟩) := by
  unfold lpOf
  by_cases h : hdr = []
  · subst h
    rw [if_pos rfl, bare_decode p w h56 hs]
    exact ⟨none, rfl⟩
  · rw [if_neg h]
    refine ⟨_, (decode_iff p _ _ (by show (100 : Nat) ≠ 5; decide) (by show (100 : Nat) ≠ 6; decide)).mpr
      ⟨rfl, _, readsAs_of ?_, hf, rfl⟩⟩
    intro e he
    rw [List.mem_append] at he
    rcases he with he | he
    · exact hwf e he
    · obtain rfl := List.mem_singleton.mp he
      exact binaryBlock_wf (by decide) (by decide) hs

end Ndn.Link

namespace Ndn.Link
open Tlv Block Block.Spec Packet Packet.Spec Lp Lp.Spec

/-! ### Packets received by a dummy face -/

theorem insert_mid {t : Nat} (x y : Bytes) {pre : List Raw} (ht : t ≠ 80)
    (hp : ∀ e ∈ pre, e.type < t ∧ e.type ≠ 80) :
    insertElem (binaryBlock t x) (pre ++ [binaryBlock 80 y]) = (pre ++ [binaryBlock t x]) ++ [binaryBlock 80 y] := by
  rw [insertElem_eq]
  have h1 : ∀ e ∈ pre, (!before (info (binaryBlock t x).type) (info e.type)) = true := by
    intro e he
    cases hb : before (info (binaryBlock t x).type) (info e.type) with
    | false => rfl
    | true =>
      have h1 := (before_iff _ _).mp hb
      have h2 := hp e he
      have h3 : (binaryBlock t x).type = t := rfl
      omega
  have h2 : (!before (info (binaryBlock t x).type) (info (binaryBlock 80 y).type)) = false := by
    have : before (info (binaryBlock t x).type) (info (binaryBlock 80 y).type) = true :=
      (before_iff _ _).mpr ⟨ht, .inl rfl⟩
    rw [this]; rfl
  rw [List.takeWhile_append_of_pos h1, List.dropWhile_append_of_pos h1, List.takeWhile_cons, List.dropWhile_cons, h2]
  simp

theorem addTag_mid {f : Fld} (hf : f = .incomingFaceId ∨ f = .congestionMark ∨ f = .nextHopFaceId) (o : Option Nat)
    (y : Bytes) {pre : List Raw} (hp : ∀ e ∈ pre, e.type < f.type ∧ e.type ≠ 80) :
    addTag f (o.map .num) ⟨pre ++ [binaryBlock 80 y], none⟩ =
      some ⟨(pre ++ numB f.type o) ++ [binaryBlock 80 y], none⟩ := by
  have h80 : f.type ≠ 80 := by rcases hf with rfl | rfl | rfl <;> decide
  cases o with
  | none => simp [addTag, numB]
  | some n =>
    simp only [Option.map_some, addTag]
    rw [addField_ok (x := writeNonNegativeInteger n) (by rcases hf with rfl | rfl | rfl <;> rfl)
      (by have := wnni_len n; omega) (by
        intro e he
        rw [List.mem_append] at he
        rcases he with he | he
        · have := hp e he; omega
        · obtain rfl := List.mem_singleton.mp he
          exact fun h => h80 h.symm), insert_mid _ _ h80 hp]
    rfl

/-- The header of a packet received by a dummy face. -/
def rcvElems (n : NetPkt) : List Raw :=
  (match n.kind with
   | .nack r => [binaryBlock 800 (nniTlv 801 r.toNat)]
   | _ => []) ++ numB 812 n.tags.incoming ++
  (match n.kind with
   | .interest => numB 816 n.tags.nextHop
   | _ => []) ++ numB 832 n.tags.congestion

theorem numB_type {t : Nat} {o : Option Nat} {e : Raw} (h : e ∈ numB t o) : e.type = t := by
  cases o with
  | none => simp [numB] at h
  | some n => rw [List.mem_singleton.mp h]; rfl

theorem numB_wf {t : Nat} (h0 : 1 ≤ t) (h1 : t ≤ 2 ^ 32 - 1) {o : Option Nat} {e : Raw} (h : e ∈ numB t o) : RawWF e := by
  cases o with
  | none => simp [numB] at h
  | some n => rw [List.mem_singleton.mp h]; exact binaryBlock_wf h0 h1 (by have := wnni_len n; omega)

theorem dummyReceive_eq {n : NetPkt} (hr : Spec.Real n) : dummyReceive n = some (lpOf (rcvElems n) n.wire) := by
  obtain ⟨kind, wire, inc, nh, cong, pol⟩ := n
  have hs : wire.wire.length < 2 ^ 64 := by have := hr.short; simp only at this; omega
  unfold dummyReceive rcvElems
  cases kind with
  | interest =>
    have h5 : wire.type = 5 := by simpa using hr.type
    simp only
    rw [bare_decode .init wire (.inl h5) hs]
    simp only [if_true]
    rw [show (⟨[binaryBlock 80 wire.wire], none⟩ : Pkt) = ⟨[] ++ [binaryBlock 80 wire.wire], none⟩ from rfl,
      addTag_mid (.inl rfl) inc _ (by simp), Option.bind_some,
      addTag_mid (.inr (.inr rfl)) nh _ (by
        intro e he
        have := numB_type (by simpa using he : e ∈ numB Fld.incomingFaceId.type inc)
        rw [this]; decide), Option.bind_some,
      addTag_mid (.inr (.inl rfl)) cong _ (by
        intro e he
        simp only [List.nil_append, List.mem_append] at he
        rcases he with he | he
        · rw [numB_type he]; decide
        · rw [numB_type he]; decide), Option.bind_some]
    exact encode_lp hr.wf _ (by simp [Fld.type])
  | data =>
    have h6 : wire.type = 6 := by simpa using hr.type
    simp only
    rw [bare_decode .init wire (.inr h6) hs]
    simp only [if_true]
    rw [show (⟨[binaryBlock 80 wire.wire], none⟩ : Pkt) = ⟨[] ++ [binaryBlock 80 wire.wire], none⟩ from rfl,
      addTag_mid (.inl rfl) inc _ (by simp), Option.bind_some,
      addTag_mid (.inr (.inl rfl)) cong _ (by
        intro e he
        simp only [List.nil_append] at he
        rw [numB_type he]; decide), Option.bind_some]
    exact encode_lp hr.wf _ (by simp [Fld.type])
  | nack r =>
    have hp := hr.reason r rfl
    simp only
    rw [addField_ok (x := nniTlv 801 r.toNat) (by
      show some (tlvBytes 800 (nniTlv 801 (toU64 r))) = _
      rw [toU64_nat hp]; rfl) (nniTlv_len _ _ (by decide)) (by simp [Pkt.init]), Option.bind_some,
      addField_ok (x := wire.wire) rfl hs (by
        intro e he
        obtain rfl := List.mem_singleton.mp he
        simp [binaryBlock, Fld.type]), Option.bind_some]
    rw [show Fld.fragment.type = 80 from rfl, frag_last]
    have hb : ∀ e ∈ insertElem (binaryBlock Fld.nack.type (nniTlv 801 r.toNat)) Pkt.init.elems, e.type = 800 := by
      intro e he
      obtain rfl := List.mem_singleton.mp he
      rfl
    rw [addTag_mid (.inl rfl) inc _ (by
        intro e he
        rw [hb e he]; decide), Option.bind_some,
      addTag_mid (.inr (.inl rfl)) cong _ (by
        intro e he
        rw [List.mem_append] at he
        rcases he with he | he
        · rw [hb e he]; decide
        · rw [numB_type he]; decide), Option.bind_some]
    exact encode_lp hr.wf _ (by simp [Fld.type, insertElem, Pkt.init])

/-- Headers of numbered fields followed by the fragment are in order. -/
theorem fields_of {hdr : List Raw} (x : Bytes) (hk : ∀ e ∈ hdr, e.type ∈ [800, 812, 816, 820, 832])
    (hp : hdr.Pairwise (fun a b => a.type < b.type)) : Fields (hdr ++ [binaryBlock 80 x]) := by
  constructor
  · intro e he
    rw [List.mem_append] at he
    rcases he with he | he
    · left
      have := hk e he
      simp only [List.mem_cons, List.not_mem_nil, or_false] at this
      unfold known
      rcases this with h | h | h | h | h <;> rw [h] <;> decide
    · obtain rfl := List.mem_singleton.mp he
      left; exact fld_known .fragment
  · unfold Ordered
    rw [List.pairwise_append]
    have h80 : ∀ e ∈ hdr, e.type ≠ 80 := by
      intro e he h
      have := hk e he
      rw [h] at this
      exact absurd this (by decide)
    refine ⟨?_, List.pairwise_singleton _ _, ?_⟩
    · refine hp.imp_of_mem ?_
      intro a b ha _ hab
      exact .inl ⟨h80 a ha, .inr hab⟩
    · intro a ha b hb
      obtain rfl := List.mem_singleton.mp hb
      exact .inl ⟨h80 a ha, .inl rfl⟩

theorem numB_pairwise (t : Nat) (o : Option Nat) : (numB t o).Pairwise (fun a b => a.type < b.type) := by
  cases o with
  | none => exact List.Pairwise.nil
  | some n => exact List.pairwise_singleton _ _

theorem num_decode {f : Fld} (hf : f = .incomingFaceId ∨ f = .congestionMark ∨ f = .nextHopFaceId) {n : Nat}
    (hn : n < 2 ^ 64) : decodeField noAnn f (binaryBlock f.type (writeNonNegativeInteger n)) = some (.num n) := by
  have hv : ValOk noAnn f (.num n) := by rcases hf with rfl | rfl | rfl <;> exact hn
  obtain ⟨w, b, h1, h2, -, -, h3⟩ := field_roundtrip hv
  have ht : 1 ≤ f.type ∧ f.type ≤ 2 ^ 32 - 1 := by cases f <;> decide
  have h4 : encodeField f (.num n) = some (tlvBytes f.type (writeNonNegativeInteger n)) := by
    rcases hf with rfl | rfl | rfl <;> rfl
  rw [h4] at h1
  obtain rfl := Option.some.inj h1
  rw [mk_block ht.1 ht.2 (by have := wnni_len n; omega)] at h2
  obtain rfl := Option.some.inj h2
  exact h3

theorem nack_decode {r : Int} (h : 0 ≤ r ∧ r < 2 ^ 31) :
    decodeField noAnn .nack (binaryBlock 800 (nniTlv 801 r.toNat)) = some (.nack r) := by
  obtain ⟨w, b, h1, h2, -, -, h3⟩ := field_roundtrip (pa := noAnn) (f := .nack) (v := .nack r) h
  have h4 : encodeField .nack (.nack r) = some (tlvBytes 800 (nniTlv 801 r.toNat)) := by
    show some (tlvBytes 800 (nniTlv 801 (toU64 r))) = _
    rw [toU64_nat h]
  rw [h4] at h1
  obtain rfl := Option.some.inj h1
  rw [mk_block (by decide) (by decide) (nniTlv_len _ _ (by decide))] at h2
  obtain rfl := Option.some.inj h2
  exact h3

theorem numIn_of {es : List Raw} {f : Fld} (hf : f = .incomingFaceId ∨ f = .congestionMark ∨ f = .nextHopFaceId)
    {o : Option Nat} (ho : ∀ n, o = some n → n < 2 ^ 64)
    (h : ∀ e, (e ∈ es ∧ e.type = f.type) ↔ e ∈ numB f.type o) : Spec.NumIn es f.type o := by
  cases o with
  | none =>
    intro e he ht
    have := (h e).mp ⟨he, ht⟩
    simp [numB] at this
  | some n =>
    have h1 := (h (binaryBlock f.type (writeNonNegativeInteger n))).mpr (List.mem_singleton.mpr rfl)
    obtain ⟨-, m, hm, hv⟩ := (num_form hf).mp (num_decode hf (ho n rfl))
    obtain rfl := Val.num.inj hv
    exact ⟨_, h1.1, rfl, hm⟩

/-- The tags with one more, if there is a number. -/
def putNum (t : Tags) (f : Fld) : Option Nat → Tags
  | none => t
  | some n => t.put f (.num n)

theorem readTags_num {p : Pkt} (hfs : Fields p.elems) {f : Fld}
    (hf : f = .incomingFaceId ∨ f = .congestionMark ∨ f = .nextHopFaceId)
    {o : Option Nat} (ho : ∀ n, o = some n → n < 2 ^ 64)
    (h : ∀ e, (e ∈ p.elems ∧ e.type = f.type) ↔ e ∈ numB f.type o) (fs : List Fld) (t : Tags) :
    readTags p (f :: fs) t = readTags p fs (putNum t f o) := by
  cases o with
  | none =>
    simp only [putNum]
    rw [readTags_none]
    intro e he ht
    have := (h e).mp ⟨he, ht⟩
    simp [numB] at this
  | some n =>
    have h1 := (h (binaryBlock f.type (writeNonNegativeInteger n))).mpr (List.mem_singleton.mpr rfl)
    simp only [putNum]
    rw [readTags_some hfs (by rcases hf with rfl | rfl | rfl <;> decide) h1.1 h1.2, num_decode hf (ho n rfl)]

end Ndn.Link
