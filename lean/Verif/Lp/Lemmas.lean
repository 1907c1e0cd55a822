import Verif.Lp.Spec
import Verif.Packet.Props
namespace Ndn.Lp
open Tlv Block Block.Spec Packet Packet.Spec Spec

theorem info_eq (t : Nat) : info t =
    if t = 80 then ⟨80, true, false, false, 2⟩
    else if t = 836 then ⟨836, true, false, true, 1⟩
    else if t ∈ known then ⟨t, true, false, false, 1⟩
    else ⟨t, false, 800 ≤ t && t ≤ 959 && t &&& 3 == 0, false, 1⟩ := by
  by_cases h : t ∈ known
  · simp only [known, List.mem_cons, List.not_mem_nil, or_false] at h
    rcases h with h | h | h | h | h | h | h | h | h | h | h | h | h | h <;> subst h <;> decide
  · have h' := h
    simp only [known, List.mem_cons, List.not_mem_nil, or_false, not_or] at h'
    obtain ⟨h1, h2, h3, h4, h5, h6, h7, h8, h9, h10, h11, h12, h13, h14⟩ := h'
    rw [if_neg h1, if_neg h11, if_neg h]
    have : Fld.all.find? (fun f => f.type = t) = none := by
      rw [List.find?_eq_none]
      intro f _
      intro hx
      have hx : f.type = t := of_decide_eq_true hx
      cases f <;> simp only [Fld.type] at hx <;> omega
    unfold info
    rw [this]

theorem info_type (t : Nat) : (info t).type = t := by
  rw [info_eq]
  repeat' split
  all_goals first | rfl | simp_all

theorem info_rep (t : Nat) : (info t).repeatable = decide (t = 836) := by
  rw [info_eq]
  by_cases h : t = 80
  · subst h; decide
  · by_cases h' : t = 836
    · subst h'; decide
    · rw [if_neg h, if_neg h']
      split <;> simp [h']

theorem info_loc (t : Nat) : (info t).location = if t = 80 then 2 else 1 := by
  rw [info_eq]
  by_cases h : t = 80
  · rw [if_pos h, if_pos h]
  · rw [if_neg h, if_neg h]
    repeat' split
    all_goals rfl

theorem before_iff (a b : Nat) : before (info a) (info b) = true ↔ a ≠ 80 ∧ (b = 80 ∨ a < b) := by
  unfold before
  rw [info_loc, info_loc, info_type, info_type]
  by_cases ha : a = 80 <;> by_cases hb : b = 80 <;> simp [ha, hb]

theorem and3 (t : Nat) : (t &&& 3 == 0) = decide (t % 4 = 0) := by
  have : t &&& 3 = t % 4 := Nat.and_two_pow_sub_one_eq_mod t 2
  rw [this]
  by_cases h : t % 4 = 0 <;> simp [h]

theorem info_ok (t : Nat) :
    (!(info t).recognized && !(info t).canIgnore) = false ↔ t ∈ known ∨ CanIgnore t := by
  rw [info_eq, and3]
  by_cases h : t = 80
  · subst h; simp [known]
  · by_cases h' : t = 836
    · subst h'; simp [known]
    · rw [if_neg h, if_neg h']
      by_cases hk : t ∈ known
      · simp [hk]
      · simp only [hk, if_false, CanIgnore, false_or, Bool.not_false, Bool.true_and, Bool.not_eq_false',
          Bool.and_eq_true, decide_eq_true_eq]
        exact and_assoc

/-- The order between two adjacent types. -/
def Rel (a b : Nat) : Prop := (a ≠ 80 ∧ (b = 80 ∨ a < b)) ∨ (a = 836 ∧ b = 836)

theorem Rel.trans {a b c : Nat} (h1 : Rel a b) (h2 : Rel b c) : Rel a c := by
  unfold Rel at *
  omega

theorem ordered_def (es : List Raw) : Ordered es ↔ es.Pairwise (fun a b => Rel a.type b.type) := Iff.rfl

theorem rel_iff (q t : Nat) :
    Rel q t ↔ ¬ (t = q ∧ (info t).repeatable = false) ∧ ¬ (t ≠ q ∧ before (info q) (info t) = false) := by
  have hb := before_iff q t
  have hr := info_rep t
  rw [hr]
  unfold Rel
  by_cases h : before (info q) (info t) = true
  · have := hb.mp h
    simp only [h]
    constructor
    · intro _
      constructor
      · rintro ⟨h1, _⟩; omega
      · simp
    · intro _; exact .inl this
  · have hn : ¬ (q ≠ 80 ∧ (t = 80 ∨ q < t)) := fun x => h (hb.mpr x)
    have hf : before (info q) (info t) = false := by simpa using h
    simp only [hf, and_true]
    constructor
    · intro hx
      rcases hx with hx | hx
      · exact absurd hx hn
      · obtain ⟨h1, h2⟩ := hx
        subst h1 h2
        simp
    · rintro ⟨h1, h2⟩
      have h3 : t = q := by omega
      subst h3
      right
      simpa using h1

theorem checkFields_some (q : Nat) (es : List Raw) :
    checkFields (some (info q)) es = true ↔
      (∀ e ∈ es, e.type ∈ known ∨ CanIgnore e.type) ∧ (∀ e ∈ es, Rel q e.type) ∧ Ordered es := by
  induction es generalizing q with
  | nil => simp [checkFields, Ordered]
  | cons e es ih =>
    unfold checkFields
    by_cases hk : e.type ∈ known ∨ CanIgnore e.type
    · have h1 := (info_ok e.type).mpr hk
      simp only [h1, Bool.false_eq_true, if_false]
      by_cases hr : Rel q e.type
      · have h2 := (rel_iff q e.type).mp hr
        rw [if_neg (by
          simp only [info_type, Bool.and_eq_true, decide_eq_true_eq, Bool.not_eq_true']
          exact h2.1)]
        rw [if_neg (by
          simp only [info_type, Bool.and_eq_true, decide_eq_true_eq, Bool.not_eq_true', ne_eq, bne_iff_ne]
          exact h2.2)]
        rw [ih]
        constructor
        · rintro ⟨a, b, c⟩
          refine ⟨?_, ?_, ?_⟩
          · simpa [hk] using a
          · simp only [List.mem_cons, forall_eq_or_imp]
            exact ⟨hr, fun x hx => hr.trans (b x hx)⟩
          · exact List.pairwise_cons.mpr ⟨b, c⟩
        · rintro ⟨a, b, c⟩
          have c' := List.pairwise_cons.mp c
          exact ⟨fun x hx => a x (List.mem_cons_of_mem _ hx), c'.1, c'.2⟩
      · have hno : ¬ ((∀ x ∈ e :: es, x.type ∈ known ∨ CanIgnore x.type) ∧ (∀ x ∈ e :: es, Rel q x.type) ∧
            Ordered (e :: es)) := fun hx => hr (hx.2.1 e (List.mem_cons_self ..))
        constructor
        · intro hx
          exfalso
          split at hx
          · cases hx
          · rename_i h3
            split at hx
            · cases hx
            · rename_i h4
              apply hr
              rw [rel_iff]
              simp only [info_type, Bool.and_eq_true, decide_eq_true_eq, Bool.not_eq_true', ne_eq, bne_iff_ne] at h3 h4
              exact ⟨h3, h4⟩
        · intro hx; exact absurd hx hno
    · have h1 : (!(info e.type).recognized && !(info e.type).canIgnore) = true := by
        have := mt (info_ok e.type).mp hk
        simpa using this
      simp only [h1, if_true, Bool.false_eq_true, false_iff]
      rintro ⟨a, _⟩
      exact hk (a e (List.mem_cons_self ..))

theorem checkFields_none (es : List Raw) : checkFields none es = true ↔ Fields es := by
  cases es with
  | nil => simp [checkFields, Fields, Ordered]
  | cons e es =>
    unfold checkFields
    by_cases hk : e.type ∈ known ∨ CanIgnore e.type
    · have h1 := (info_ok e.type).mpr hk
      simp only [h1, Bool.false_eq_true, if_false]
      rw [checkFields_some]
      unfold Fields
      constructor
      · rintro ⟨a, b, c⟩
        exact ⟨by simpa [hk] using a, List.pairwise_cons.mpr ⟨b, c⟩⟩
      · rintro ⟨a, c⟩
        have c' := List.pairwise_cons.mp c
        exact ⟨fun x hx => a x (List.mem_cons_of_mem _ hx), c'.1, c'.2⟩
    · have h1 : (!(info e.type).recognized && !(info e.type).canIgnore) = true := by
        have := mt (info_ok e.type).mp hk
        simpa using this
      simp only [h1, if_true, Bool.false_eq_true, false_iff]
      rintro ⟨a, _⟩
      exact hk (a e (List.mem_cons_self ..))

/-! ### Occurrences of a field -/

/-- The elements of one type. -/
def occ (t : Nat) (es : List Raw) : List Raw := es.filter (fun e => e.type = t)

theorem count_eq (p : Pkt) (f : Fld) : p.count f = (occ f.type p.elems).length := by
  simp [Pkt.count, occ, List.countP_eq_length_filter]

theorem nthOf_eq (t : Nat) (es : List Raw) (i : Nat) : nthOf t es i = (occ t es)[i]? := by
  induction es generalizing i with
  | nil => simp [nthOf, occ]
  | cons e es ih =>
    unfold nthOf occ
    by_cases h : e.type = t
    · simp only [h, ne_eq, not_true, if_false, decide_true, List.filter_cons_of_pos]
      cases i with
      | zero => simp
      | succ i => simp [ih, occ]
    · simp only [h, ne_eq, not_false_eq_true, if_true, decide_false, Bool.false_eq_true, List.filter_cons_of_neg]
      exact ih i

theorem listOf_eq {pa : Raw → Bool} {f : Fld} {es : List Raw} {l : List Val} :
    listOf pa f es = some l ↔ (occ f.type es).map (decodeField pa f) = l.map some := by
  induction es generalizing l with
  | nil => cases l <;> simp [listOf, occ]
  | cons e es ih =>
    unfold listOf occ
    by_cases h : e.type = f.type
    · simp only [h, ne_eq, not_true, if_false, decide_true, List.filter_cons_of_pos, List.map_cons]
      cases hd : decodeField pa f e with
      | none => cases l <;> simp
      | some v =>
        simp only
        cases l with
        | nil => simp
        | cons w l =>
          simp only [List.map_cons, List.cons.injEq, Option.some.injEq, Option.map_eq_some_iff]
          constructor
          · rintro ⟨a, h1, h2, h3⟩
            exact ⟨h2, by rw [← h3]; exact ih.mp h1⟩
          · rintro ⟨h1, h2⟩
            exact ⟨l, ih.mpr h2, h1, rfl⟩
    · simp only [h, ne_eq, not_false_eq_true, if_true, decide_false, Bool.false_eq_true, List.filter_cons_of_neg]
      exact ih

theorem fld_type_inj {f g : Fld} : f.type = g.type ↔ f = g := by
  constructor
  · cases f <;> cases g <;> simp [Fld.type]
  · intro h; rw [h]

theorem fld_known (f : Fld) : f.type ∈ known := by cases f <;> decide

theorem fld_rep (f : Fld) : f.repeatable = decide (f.type = 836) := by cases f <;> rfl

theorem fld_rep' (f : Fld) : f.repeatable = decide (f = .ack) := by cases f <;> rfl

/-! ### add -/

/-- The elements after inserting `b`. -/
def insertElem (b : Raw) (es : List Raw) : List Raw :=
  es.take (upperBound b.type es) ++ b :: es.drop (upperBound b.type es)

theorem insertElem_eq (b : Raw) (es : List Raw) : insertElem b es =
    es.takeWhile (fun e => !before (info b.type) (info e.type)) ++
      b :: es.dropWhile (fun e => !before (info b.type) (info e.type)) := by
  unfold insertElem upperBound
  have h := List.takeWhile_append_dropWhile (p := fun e : Raw => !before (info b.type) (info e.type)) (l := es)
  have h1 : es.take (es.takeWhile (fun e : Raw => !before (info b.type) (info e.type))).length =
      es.takeWhile (fun e : Raw => !before (info b.type) (info e.type)) := by
    have := List.take_left (l₁ := es.takeWhile (fun e : Raw => !before (info b.type) (info e.type)))
      (l₂ := es.dropWhile (fun e : Raw => !before (info b.type) (info e.type)))
    rwa [h] at this
  have h2 : es.drop (es.takeWhile (fun e : Raw => !before (info b.type) (info e.type))).length =
      es.dropWhile (fun e : Raw => !before (info b.type) (info e.type)) := by
    have := List.drop_left (l₁ := es.takeWhile (fun e : Raw => !before (info b.type) (info e.type)))
      (l₂ := es.dropWhile (fun e : Raw => !before (info b.type) (info e.type)))
    rwa [h] at this
  rw [h1, h2]

theorem drop_before {es : List Raw} (ho : Ordered es) (t : Nat) :
    ∀ e ∈ es.dropWhile (fun e => !before (info t) (info e.type)), before (info t) (info e.type) = true := by
  induction es with
  | nil => simp
  | cons e es ih =>
    have ho' := List.pairwise_cons.mp ho
    rw [List.dropWhile_cons]
    split
    · exact ih ho'.2
    · rename_i h
      have hb : before (info t) (info e.type) = true := by simpa using h
      intro x hx
      rcases List.mem_cons.mp hx with rfl | hx
      · exact hb
      · have h1 := (before_iff _ _).mp hb
        have h2 := ho'.1 x hx
        rw [before_iff]
        omega

theorem take_not_before {es : List Raw} (t : Nat) :
    ∀ e ∈ es.takeWhile (fun e => !before (info t) (info e.type)), ¬ before (info t) (info e.type) = true := by
  intro e he
  have := List.all_takeWhile (p := fun e : Raw => !before (info t) (info e.type)) (l := es)
  have := List.all_eq_true.mp this e he
  simpa using this

theorem insert_ordered {es : List Raw} (ho : Ordered es) (b : Raw)
    (hr : b.type = 836 ∨ occ b.type es = []) : Ordered (insertElem b es) := by
  rw [insertElem_eq]
  have hsplit : es.takeWhile (fun e => !before (info b.type) (info e.type)) ++
      es.dropWhile (fun e => !before (info b.type) (info e.type)) = es := List.takeWhile_append_dropWhile
  have ho2 : Ordered (es.takeWhile (fun e => !before (info b.type) (info e.type)) ++
      es.dropWhile (fun e => !before (info b.type) (info e.type))) := by rw [hsplit]; exact ho
  have hd := drop_before ho b.type
  have ht := take_not_before (es := es) b.type
  have hsub : ∀ e ∈ es.takeWhile (fun e => !before (info b.type) (info e.type)), e ∈ es := by
    intro e he
    rw [← hsplit]; exact List.mem_append_left _ he
  generalize es.takeWhile (fun e => !before (info b.type) (info e.type)) = A at *
  generalize es.dropWhile (fun e => !before (info b.type) (info e.type)) = D at *
  obtain ⟨h1, h2, h3⟩ := List.pairwise_append.mp ho2
  refine List.pairwise_append.mpr ⟨h1, List.pairwise_cons.mpr ⟨?_, h2⟩, ?_⟩
  · intro x hx
    exact .inl ((before_iff _ _).mp (hd x hx))
  · intro a ha x hx
    rcases List.mem_cons.mp hx with rfl | hx
    · have hb := mt (before_iff x.type a.type).mpr (ht a ha)
      have hne : x.type ≠ 836 → a.type ≠ x.type := by
        intro hn heq
        rcases hr with hr | hr
        · exact hn hr
        · have : a ∈ occ x.type es := by
            unfold occ
            simp [hsub a ha, heq]
          rw [hr] at this
          cases this
      by_cases h836 : x.type = 836 <;> omega
    · exact h3 a ha x hx

theorem occ_insert {es : List Raw} (ho : Ordered es) (b : Raw) (t : Nat) :
    occ t (insertElem b es) = if t = b.type then occ t es ++ [b] else occ t es := by
  rw [insertElem_eq]
  have hsplit : es.takeWhile (fun e => !before (info b.type) (info e.type)) ++
      es.dropWhile (fun e => !before (info b.type) (info e.type)) = es := List.takeWhile_append_dropWhile
  have hd := drop_before ho b.type
  conv => rhs; rw [← hsplit]
  generalize es.takeWhile (fun e => !before (info b.type) (info e.type)) = A at *
  generalize es.dropWhile (fun e => !before (info b.type) (info e.type)) = D at *
  unfold occ
  by_cases h : t = b.type
  · subst h
    have hD : D.filter (fun e => decide (e.type = b.type)) = [] := by
      rw [List.filter_eq_nil_iff]
      intro x hx
      have := (before_iff _ _).mp (hd x hx)
      simp only [decide_eq_true_eq]
      omega
    simp [hD]
  · have h' : ¬ b.type = t := fun x => h x.symm
    simp [h, h']

theorem insert_mem {b : Raw} {es : List Raw} {e : Raw} : e ∈ insertElem b es ↔ e = b ∨ e ∈ es := by
  unfold insertElem
  conv => rhs; rw [← List.take_append_drop (upperBound b.type es) es]
  simp only [List.mem_append, List.mem_cons]
  constructor
  · rintro (h | h | h)
    · exact .inr (.inl h)
    · exact .inl h
    · exact .inr (.inr h)
  · rintro (h | h | h)
    · exact .inr (.inl h)
    · exact .inl h
    · exact .inr (.inr h)

/-! ### encode then decode a field -/

theorem nniTlv_len (t n : Nat) (ht : t < 2 ^ 32) : (nniTlv t n).length < 2 ^ 64 := by
  unfold nniTlv
  rw [tlvBytes_length, writeVarNumber_length, writeVarNumber_length]
  have h1 : (writeNonNegativeInteger n).length ≤ 8 := by
    simp only [writeNonNegativeInteger]
    (repeat' split) <;> simp [beBytes_length]
  have h2 : ∀ k, sizeOfVarNumber k ≤ 9 := by
    intro k
    unfold sizeOfVarNumber
    (repeat' split) <;> omega
  have := h2 t
  have := h2 (writeNonNegativeInteger n).length
  omega

theorem mk_block {t : Nat} {v : Bytes} (h0 : 1 ≤ t) (h1 : t ≤ 2 ^ 32 - 1) (hv : v.length < 2 ^ 64) :
    fromRange (tlvBytes t v) true = some (binaryBlock t v) := fromRange_tlvBytes h0 h1 hv

theorem parse_one {e : Raw} (h : RawWF e) : parseElements e.wire = some [e] := by
  have : ReadsAs e.wire [e] := by simpa using readsAs_of (es := [e]) (by simpa using h)
  exact parseElements_iff.mpr this

theorem field_roundtrip {pa : Raw → Bool} {f : Fld} {v : Val} (h : ValOk pa f v) :
    ∃ w b, encodeField f v = some w ∧ fromRange w true = some b ∧ b.type = f.type ∧ RawWF b ∧
      decodeField pa f b = some v := by
  have key : ∀ x : Bytes, x.length < 2 ^ 64 → encodeField f v = some (tlvBytes f.type x) →
      decodeField pa f (binaryBlock f.type x) = some v → 
      ∃ w b, encodeField f v = some w ∧ fromRange w true = some b ∧ b.type = f.type ∧ RawWF b ∧
      decodeField pa f b = some v := by
    intro x hx h1 h2
    have ht : 1 ≤ f.type ∧ f.type ≤ 2 ^ 32 - 1 := by cases f <;> decide
    exact ⟨_, _, h1, mk_block ht.1 ht.2 hx, rfl, binaryBlock_wf ht.1 ht.2 hx, h2⟩
  have hnni : ∀ n, n < 2 ^ 64 → readNniValue (writeNonNegativeInteger n) = some n := fun n hn => readNniValue_write hn
  cases f <;> cases v <;> simp only [ValOk] at h
  case fragment.octets b =>
    exact key b h.2 rfl (by simp [decodeField, binaryBlock, Fld.type, h.1])
  case pitToken.octets b =>
    exact key b h.2 rfl (by simp [decodeField, binaryBlock, Fld.type, h.1])
  case sequence.num n =>
    exact key (beBytes 8 n) (by simp [beBytes_length]) rfl
      (by simp [decodeField, binaryBlock, Fld.type, beBytes_length, beNat_beBytes_of_lt (k := 8) (n := n) (by omega)])
  case ack.num n =>
    exact key (beBytes 8 n) (by simp [beBytes_length]) rfl
      (by simp [decodeField, binaryBlock, Fld.type, beBytes_length, beNat_beBytes_of_lt (k := 8) (n := n) (by omega)])
  case txSequence.num n =>
    exact key (beBytes 8 n) (by simp [beBytes_length]) rfl
      (by simp [decodeField, binaryBlock, Fld.type, beBytes_length, beNat_beBytes_of_lt (k := 8) (n := n) (by omega)])
  case fragIndex.num n =>
    exact key _ (nni_len_lt n) rfl (by simp [decodeField, binaryBlock, Fld.type, hnni n h])
  case fragCount.num n =>
    exact key _ (nni_len_lt n) rfl (by simp [decodeField, binaryBlock, Fld.type, hnni n h])
  case nextHopFaceId.num n =>
    exact key _ (nni_len_lt n) rfl (by simp [decodeField, binaryBlock, Fld.type, hnni n h])
  case incomingFaceId.num n =>
    exact key _ (nni_len_lt n) rfl (by simp [decodeField, binaryBlock, Fld.type, hnni n h])
  case congestionMark.num n =>
    exact key _ (nni_len_lt n) rfl (by simp [decodeField, binaryBlock, Fld.type, hnni n h])
  case nonDiscovery.empty =>
    exact key [] (by simp) rfl (by simp [decodeField, binaryBlock, Fld.type])
  case nack.nack c =>
    obtain ⟨n, rfl⟩ := Int.eq_ofNat_of_zero_le h.1
    have hn : n < 2 ^ 31 := by have := h.2; omega
    have hu : toU64 (Int.ofNat n) = n := by unfold toU64; simp; omega
    refine key (nniTlv 801 n) (nniTlv_len _ _ (by decide)) (by simp only [encodeField]; rw [show ((n : Int)) = Int.ofNat n from rfl, hu]; rfl) ?_
    have hp := parse_one (e := binaryBlock 801 (writeNonNegativeInteger n)) (binaryBlock_wf (by decide) (by decide) (nni_len_lt n))
    have hr : readNniValueAs (2 ^ 31 - 1) (writeNonNegativeInteger n) = some n := readNniAs_write (by omega) (by omega)
    have hd : nackDecode (binaryBlock 800 (nniTlv 801 n)) = some (Int.ofNat n) := by
      unfold nackDecode
      rw [show (binaryBlock 800 (nniTlv 801 n)).value = (binaryBlock 801 (writeNonNegativeInteger n)).wire from rfl, hp]
      simp only [show (binaryBlock 801 (writeNonNegativeInteger n)).type = 801 from rfl, if_true]
      rw [show (binaryBlock 801 (writeNonNegativeInteger n)).value = writeNonNegativeInteger n from rfl, hr]
      rfl
    unfold decodeField
    rw [if_neg (by simp [binaryBlock])]
    show (nackDecode (binaryBlock 800 (nniTlv 801 n))).map Val.nack = _
    rw [hd]
    rfl
  case cachePolicy.policy c =>
    subst h
    exact ⟨tlvBytes 820 (nniTlv 821 1), binaryBlock 820 (nniTlv 821 1), by decide, by decide, by decide,
      binaryBlock_wf (by decide) (by decide) (nniTlv_len _ _ (by decide)), rfl⟩
  case prefixAnn.ann d =>
    obtain ⟨r, rfl, h1, h2, h3, h4⟩ := h
    refine key r.wire h3 rfl ?_
    unfold decodeField
    rw [if_neg (by simp [binaryBlock])]
    show (annDecode pa (binaryBlock 848 r.wire)).map (fun d => Val.ann (some d)) = _
    have : annDecode pa (binaryBlock 848 r.wire) = some r := by
      unfold annDecode
      rw [show (binaryBlock 848 r.wire).value = r.wire from rfl, parse_one h1]
      simp [h2, h4]
    rw [this]; rfl

end Ndn.Lp
