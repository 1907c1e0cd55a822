import Verif.Block.ObjLemmas
/-
C05 – C09, C71: ndn::Block.
-/
namespace Ndn.Block
open Tlv Tlv.Spec Spec

/-! ## C05 -/

mutual
theorem tree_aux : ∀ t : Tree, t.WF → ∃ r, TlvForm t.enc r.type r.value ∧ r.wire = t.enc ∧ t.Is r
  | .leaf ty v, h => by
    simp only [Tree.WF] at h
    exact ⟨⟨ty, tlv ty v, v⟩, tlv_form h.1 h.2.1 h.2.2, rfl, by simp [Tree.Is]⟩
  | .node ty cs, h => by
    simp only [Tree.WF] at h
    obtain ⟨rs, h1, h2⟩ := treeList_aux cs h.2.2.2
    refine ⟨⟨ty, tlv ty (Tree.encList cs), Tree.encList cs⟩, ?_, ?_, ?_⟩
    · simp only [Tree.enc]; exact tlv_form h.1 h.2.1 h.2.2.1
    · simp only [Tree.enc]
    · simp only [Tree.Is, true_and]
      exact ⟨rs, parseElements_iff.mpr h1, h2⟩
theorem treeList_aux : ∀ ts : List Tree, Tree.WFList ts →
    ∃ rs, ReadsAs (Tree.encList ts) rs ∧ Tree.IsList ts rs
  | [], _ => ⟨[], by simp [Tree.encList, ReadsAs], by simp [Tree.IsList]⟩
  | t :: ts, h => by
    simp only [Tree.WFList] at h
    obtain ⟨r, h1, h2, h3⟩ := tree_aux t h.1
    obtain ⟨rs, h4, h5⟩ := treeList_aux ts h.2
    refine ⟨r :: rs, ?_, ?_⟩
    · have := ReadsAs.cons (r := r) (h2 ▸ h1) h4
      rw [h2] at this
      simpa only [Tree.encList] using this
    · simp only [Tree.IsList]
      exact ⟨r, rs, rfl, h3, h5⟩
end

/-- C05: decoding the encoding of any well-formed TLV tree, followed by anything, gives back that
tree at every level, and consumes exactly the encoding. -/
theorem C05_roundtrip (t : Tree) (h : t.WF) (rest : Bytes) :
    ∃ r, fromBuffer (t.enc ++ rest) = some (r, rest) ∧ r.wire = t.enc ∧ t.Is r := by
  obtain ⟨r, h1, h2, h3⟩ := tree_aux t h
  exact ⟨r, fromBuffer_iff.mpr ⟨by rw [h2], h2 ▸ h1⟩, h2, h3⟩

/-- C05: what is written for an element depends on nothing else: encodings of two trees that
decode to the same bytes have the same type and value (the encoding is injective on elements). -/
theorem C05_injective (t1 t2 : Nat) (v1 v2 rest1 rest2 : Bytes)
    (h1 : 1 ≤ t1 ∧ t1 ≤ 2 ^ 32 - 1 ∧ v1.length < 2 ^ 64)
    (h2 : 1 ≤ t2 ∧ t2 ≤ 2 ^ 32 - 1 ∧ v2.length < 2 ^ 64)
    (h : tlv t1 v1 ++ rest1 = tlv t2 v2 ++ rest2) : t1 = t2 ∧ v1 = v2 ∧ rest1 = rest2 := by
  have a := fromBuffer_tlv rest1 h1.1 h1.2.1 h1.2.2
  have b := fromBuffer_tlv rest2 h2.1 h2.2.1 h2.2.2
  rw [h, b] at a
  simp only [Option.some.injEq, Prod.mk.injEq, Raw.mk.injEq] at a
  obtain ⟨⟨rfl, _, rfl⟩, rfl⟩ := a
  exact ⟨rfl, rfl, rfl⟩

example : (Tree.node 7 [.leaf 8 [97], .leaf 8 [], .node 300 [.leaf 1 [1, 2]]]).WF ∧
    (Tree.node 7 [.leaf 8 [97], .leaf 8 []]).enc = [7, 5, 8, 1, 97, 8, 0] := by
  simp only [Tree.WF, Tree.WFList, Tree.enc, Tree.encList, tlv]; decide

/-! ## C06 -/

/-- C06: for every byte string, `fromBuffer` returns a block exactly when the string starts with a
complete TLV element; the block is that element and the rest is what follows it. -/
theorem C06_iff (bs rest : Bytes) (r : Raw) :
    fromBuffer bs = some (r, rest) ↔ bs = r.wire ++ rest ∧ TlvForm r.wire r.type r.value :=
  fromBuffer_iff

/-- C06: `fromBuffer` fails exactly when no prefix of the input is a TLV element. -/
theorem C06_fail_iff (bs : Bytes) :
    fromBuffer bs = none ↔ ∀ w rest t v, bs = w ++ rest → ¬ TlvForm w t v :=
  fromBuffer_none_iff

/-- C06: success is unaffected by appended bytes. -/
theorem C06_stable (bs rest more : Bytes) (r : Raw) (h : fromBuffer bs = some (r, rest)) :
    fromBuffer (bs ++ more) = some (r, rest ++ more) := by
  obtain ⟨rfl, h2⟩ := fromBuffer_iff.mp h
  exact fromBuffer_iff.mpr ⟨by simp, h2⟩

/-- C06: a failure cured by more bytes was for want of bytes: the input was a proper prefix of the
element found. -/
theorem C06_cure (bs more rest : Bytes) (r : Raw) (h : fromBuffer bs = none)
    (h' : fromBuffer (bs ++ more) = some (r, rest)) :
    ∃ missing, missing ≠ [] ∧ r.wire = bs ++ missing := by
  obtain ⟨h1, h2⟩ := fromBuffer_iff.mp h'
  have hlt : bs.length < r.wire.length := by
    apply Classical.byContradiction
    intro hge
    have hp : r.wire <+: bs ++ more := ⟨rest, h1.symm⟩
    have := List.prefix_of_prefix_length_le hp (List.prefix_append bs more) (by omega)
    obtain ⟨s, hs⟩ := this
    exact fromBuffer_none_iff.mp h r.wire s _ _ hs.symm h2
  have := List.prefix_of_prefix_length_le (List.prefix_append bs more) ⟨rest, h1.symm⟩ (by omega)
  obtain ⟨s, hs⟩ := this
  refine ⟨s, ?_, hs.symm⟩
  rintro rfl
  simp at hs; rw [hs] at hlt; omega

/-- C06: the constructor from a whole buffer accepts exactly one TLV element and nothing after. -/
theorem C06_whole_buffer (bs : Bytes) (r : Raw) :
    fromRange bs true = some r ↔ r.wire = bs ∧ TlvForm bs r.type r.value :=
  fromRange_iff

/-- C06: `blockFromValue` succeeds exactly when the value is one TLV element and nothing else, which it gives. -/
theorem C06_from_value (value : Bytes) (r : Raw) :
    blockFromValue value = some r ↔ r.wire = value ∧ TlvForm value r.type r.value := by
  unfold blockFromValue
  split
  · rename_i h
    have h : value = [] := List.length_eq_zero_iff.mp h
    subst h
    rw [← fromRange_iff]
    exact ⟨fun h => (by cases h), fun h => (by simp [fromRange, readType, readVarNumber] at h)⟩
  · exact fromRange_iff

example : blockFromValue [8, 1, 97] = some ⟨8, [8, 1, 97], [97]⟩ := rfl

/-- C06: two decoded blocks are equal exactly when their types and values are, however they were encoded. -/
theorem C06_equals (a b : Raw) : a.equals b = true ↔ a.type = b.type ∧ a.value = b.value := by
  simp [Raw.equals]

/-- C06: the offset variant is the same on the bytes from the offset on. -/
theorem C06_offset (bs : Bytes) (offset : Nat) (h : offset ≤ bs.length) (r : Raw) (rest : Bytes) :
    fromBufferAt bs offset = some (some (r, rest)) ↔
      ∃ pre, pre.length = offset ∧ bs = pre ++ r.wire ++ rest ∧ TlvForm r.wire r.type r.value := by
  unfold fromBufferAt
  rw [if_neg (by omega), Option.some.injEq, fromBuffer_iff]
  constructor
  · rintro ⟨h1, h2⟩
    exact ⟨bs.take offset, by simp; omega, by rw [List.append_assoc, ← h1, List.take_append_drop], h2⟩
  · rintro ⟨pre, rfl, rfl, h2⟩
    exact ⟨by simp, h2⟩

example : fromBuffer [8, 1, 97, 5] = some (⟨8, [8, 1, 97], [97]⟩, [5]) ∧
    fromBuffer [8, 2, 97] = none ∧ fromBuffer [0, 0] = none := by decide

/-! ## C07 -/

/-- C07 (first call): `parse()` succeeds exactly when the value is a sequence of TLV elements, and
then the elements are those: in order, with nothing dropped, added or changed. -/
theorem C07_parse_iff (v : Bytes) (es : List Raw) :
    parseElements v = some es ↔ ReadsAs v es :=
  parseElements_iff

/-- C07 (first call): the reading is unique, so `parse()` is the only possible reading. -/
theorem C07_unique (v : Bytes) (es es' : List Raw) (h : ReadsAs v es) (h' : ReadsAs v es') :
    es = es' := by
  have a := parseElements_iff.mpr h
  rw [parseElements_iff.mpr h'] at a
  simpa using a.symm

/-- C07 (repeated calls after success): nothing changes. -/
theorem C07_idempotent (v : Bytes) (es : List Raw) (h : parse v [] = (.ok, es)) :
    parse v es = (.ok, es) := by
  by_cases he : es = []
  · subst he; exact h
  · simp [parse, he]

/-- C07, repeated calls after a failure — full statement: for every value, if the first call throws
then so does the second. It does not hold, see `C07_repeat_counterexample`. -/
def C07_repeat_claim : Prop :=
  ∀ v es es' , parse v [] = (.threw, es) → parse v es ≠ (.ok, es')

/-- C07: the full statement is false of the code: value `01 00 | 05` (a complete element followed by
half a header). The first `parse()` throws but leaves the first element in the element list, so the
second call returns normally and the trailing octet is silently ignored. -/
theorem C07_repeat_counterexample : ¬ C07_repeat_claim := by
  intro h
  exact h [1, 0, 5] [⟨1, [1, 0], []⟩] [⟨1, [1, 0], []⟩] (by decide) (by decide)

/-- The outcome of the `n`-th further call of `parse()` on the same block. -/
def parseAgain (v : Bytes) : Nat → Outcome × List Raw
  | 0 => parse v []
  | n + 1 => parse v (parseAgain v n).2

/-- C07, repeated calls, the part that holds: if the value is a sequence of good elements followed
by a complete header that announces more octets than there are, every call fails and leaves no
elements. Missing: a value ending in an incomplete or malformed header after a good element, for
which the claim is false. -/
theorem C07_repeat_partial (pre t l pos : Bytes) (es : List Raw) (type length : Nat)
    (hpre : ReadsAs pre es) (ht : VarForm t type) (h0 : 1 ≤ type) (h32 : type ≤ 2 ^ 32 - 1)
    (hl : VarForm l length) (hlen : pos.length < length) (n : Nat) :
    parseAgain (pre ++ (t ++ l ++ pos)) n = (.threw, []) := by
  have hone : parse (pre ++ (t ++ l ++ pos)) [] = (.threw, []) := by
    have htl := VarForm_length_pos ht
    unfold parse
    rw [if_neg (by simp; intro _ h; simp [h] at htl)]
    obtain ⟨f, h1, h2⟩ := parseLoop_append hpre (pre ++ (t ++ l ++ pos)).length []
      (Nat.le_refl _) (bad := t ++ l ++ pos)
    rw [h2]
    obtain ⟨r1, h3, h4⟩ := (header_iff (pos := pos)).mpr ⟨t, l, rfl, ht, h0, h32, hl⟩
    cases hb : t ++ l ++ pos with
    | nil => have := congrArg List.length hb; simp at this; simp [this] at htl
    | cons b bs =>
      cases f with
      | zero => rw [hb] at h1; simp at h1
      | succ f =>
        rw [parseLoop, ← hb, h3]
        simp only [h4]
        rw [if_pos (by omega)]
  induction n with
  | zero => exact hone
  | succ n ih => rw [parseAgain, ih]; exact hone

example : parseAgain [8, 1, 97, 8, 2, 97] 3 = (.threw, []) := by decide

/-- C07: in the failure case every element left behind is nevertheless a true element of the value:
the list left is a reading of a prefix of the value. -/
theorem C07_left_behind (v : Bytes) (es : List Raw) (h : parse v [] = (.threw, es)) :
    ∃ pre rest, v = pre ++ rest ∧ ReadsAs pre es := by
  have key : ∀ fuel acc pre bs es, ReadsAs pre acc → parseLoop fuel acc bs = (.threw, es) →
      ∃ p r, pre ++ bs = p ++ r ∧ ReadsAs p es := by
    intro fuel
    induction fuel with
    | zero =>
      intro acc pre bs es ha hp
      cases bs with
      | nil => simp [parseLoop] at hp
      | cons b bs => simp [parseLoop] at hp; subst hp; exact ⟨pre, b :: bs, rfl, ha⟩
    | succ fuel ih =>
      intro acc pre bs es ha hp
      cases bs with
      | nil => simp [parseLoop] at hp
      | cons b bs =>
        cases hr : fromBuffer (b :: bs) with
        | some p =>
          rw [fromBuffer_step, hr] at hp
          obtain ⟨h1, h2⟩ := fromBuffer_iff.mp hr
          have h3 := ReadsAs.append ha (ReadsAs.cons (r := p.1) h2 ReadsAs.nil)
          have := ih _ _ _ _ h3 hp
          simpa [h1] using this
        | none =>
          rw [parseLoop] at hp
          unfold fromBuffer at hr
          split at hp
          · simp at hp; subst hp; exact ⟨pre, _, rfl, ha⟩
          · rename_i h1; rw [h1] at hr; simp only at hr
            split at hp
            · simp at hp; subst hp; exact ⟨pre, _, rfl, ha⟩
            · rename_i h2; rw [h2] at hr; simp only at hr
              split at hp
              · simp at hp; subst hp; exact ⟨[], pre ++ b :: bs, rfl, ReadsAs.nil⟩
              · rename_i h3; rw [if_neg h3] at hr; simp at hr
  unfold parse at h
  split at h
  · simp at h
  · exact key v.length [] [] v es ReadsAs.nil h

example : parseElements [8, 1, 97, 8, 0] = some [⟨8, [8, 1, 97], [97]⟩, ⟨8, [8, 0], []⟩] ∧
    parseElements [8, 1, 97, 8] = none := by decide

/-! ## C08 -/

/-- C08: start from `Block(type)` and make any calls of the mutators, `encode` and `parse`. The
calls are exactly those a plain list allows, the elements are the list those calls produce on an
empty list, and `encode()` then yields the canonical TLV of that list; `find` gives the first
element of the type asked for. -/
theorem C08_built (t : Nat) (ops : List Op) :
    ((Obj.ofType t).run ops = none ↔ listRun [] ops = none) ∧
    ∀ b, (Obj.ofType t).run ops = some b →
      ∃ l, listRun [] ops = some l ∧ b.elements.map Obj.abs = l ∧
        b.encode.buf = some (tlv t (canonical l), canonical l) ∧ b.encode.elements.map Obj.abs = l ∧
        ∀ ty, (b.find ty).map Obj.abs = l.find? (fun p => p.1 = ty) := by
  have hc : Obj.Canon (Obj.ofType t) t [] := ⟨rfl, rfl, Or.inl rfl⟩
  obtain ⟨h1, h2⟩ := Obj.run_canon hc ops
  refine ⟨⟨h2, ?_⟩, ?_⟩
  · intro hn
    cases hr : (Obj.ofType t).run ops with
    | none => rfl
    | some b => obtain ⟨l, hl, _⟩ := h1 b hr; rw [hn] at hl; simp at hl
  · intro b hb
    obtain ⟨l, hl, hcan⟩ := h1 b hb
    refine ⟨l, hl, hcan.2.1, hcan.encode.2, hcan.encode.1.2.1, ?_⟩
    intro ty
    rw [Obj.find_abs, hcan.2.1]

/-- C08: after any history, decoding the encoded block gives back the current list: the wire is
never stale. (Types must be legal and sizes below 2^64 for the bytes to be decodable at all.) -/
theorem C08_decodes (t : Nat) (ops : List Op) (b : Obj) (hb : (Obj.ofType t).run ops = some b)
    (ht : 1 ≤ t ∧ t ≤ 2 ^ 32 - 1)
    (hl : ∀ l, listRun [] ops = some l → (∀ p ∈ l, ElemWF p) ∧ (canonical l).length < 2 ^ 64)
    (rest : Bytes) :
    ∃ l w v es, listRun [] ops = some l ∧ b.encode.buf = some (w, v) ∧
      fromBuffer (w ++ rest) = some (⟨t, w, v⟩, rest) ∧ parseElements v = some es ∧
      es.map (fun e => (e.type, e.value)) = l := by
  obtain ⟨l, h1, _, h3, _, _⟩ := (C08_built t ops).2 b hb
  obtain ⟨hwf, hlen⟩ := hl l h1
  refine ⟨l, _, _, l.map mkRaw, h1, h3, fromBuffer_tlv rest ht.1 ht.2 hlen,
    parseElements_canon hwf, ?_⟩
  simp [mkRaw, Function.comp_def]

/-- C08: the same for a block that was decoded and parsed: without mutators its wire stays the
original one; from the first mutator on it is that of the current list. -/
theorem C08_decoded (r : Raw) (hr : TlvForm r.wire r.type r.value) (es : List Raw)
    (hp : parseElements r.value = some es) (ops : List Op) (b : Obj)
    (hb : (Obj.ofRaw r).parse.2.run ops = some b) :
    ∃ l, listRun (es.map (fun e => (e.type, e.value))) ops = some l ∧
      b.elements.map Obj.abs = l ∧
      b.encode.buf = some (if ops.any Op.mutates then (tlv r.type (canonical l), canonical l)
        else (r.wire, r.value)) ∧
      ∀ ty, (b.find ty).map Obj.abs = l.find? (fun p => p.1 = ty) := by
  -- the parsed object
  let b0 : Obj := .mk r.type (some (r.wire, r.value)) r.wire.length (es.map Obj.ofRaw)
  have hb0 : (Obj.ofRaw r).parse = (.ok, b0) := by
    have hread := parseElements_iff.mp hp
    unfold Obj.parse Obj.ofRaw
    by_cases hv : r.value = []
    · have : es = [] := by
        have h := hread.1
        rw [hv] at h
        cases es with
        | nil => rfl
        | cons e es =>
          have := (hread.2 e (by simp)).ne_nil
          simp at h; exact absurd h.1 this
      rw [if_pos (Or.inr (by simp [Obj.valueBytes, Obj.buf, hv]))]
      simp [b0, this]
    · rw [if_neg (by simp [Obj.valueBytes, Obj.buf, Obj.elements, hv])]
      have := (parseLoop_ok_iff (acc := []) (es := es) (Nat.le_refl r.value.length)).mpr
        ⟨es, by simp, hread⟩
      simp only [Obj.valueBytes, Obj.buf, this]
      rfl
  have habs : b0.elements.map Obj.abs = es.map (fun e => (e.type, e.value)) := by
    simp only [b0, Obj.elements, List.map_map]
    apply List.map_congr_left
    intro e _
    simp [Obj.abs, Obj.ofRaw, Obj.type, Obj.content]
  rw [hb0] at hb
  have hwire : r.wire ≠ [] := hr.ne_nil
  have henc : b0.encode = b0 := by
    unfold Obj.encode
    rw [if_pos (by simp [Obj.hasWire, b0, Obj.buf, hwire])]
  have hpar : b0.parse = (.ok, b0) := by
    by_cases he : es = []
    · have hv : r.value = [] := by
        have := (parseElements_iff.mp hp).1; rw [he] at this; simpa using this
      unfold Obj.parse
      rw [if_pos (Or.inr (by simp [b0, Obj.valueBytes, Obj.buf, hv]))]
    · unfold Obj.parse
      rw [if_pos (Or.inl (by simp [b0, Obj.elements, he]))]
  -- induction over the calls made before the first mutator
  have key : ∀ ops, b0.run ops = some b →
      ∃ l, listRun (b0.elements.map Obj.abs) ops = some l ∧ b.elements.map Obj.abs = l ∧
        b.encode.buf = some (if ops.any Op.mutates then (tlv r.type (canonical l), canonical l)
          else (r.wire, r.value)) := by
    intro ops
    induction ops with
    | nil =>
      intro h
      simp only [Obj.run, Option.some.injEq] at h
      subst h
      exact ⟨_, rfl, rfl, by rw [henc]; rfl⟩
    | cons op ops ih =>
      intro h
      by_cases hm : op.mutates = true
      · obtain ⟨h1, h2⟩ := Obj.step_mutator b0 op hm
        simp only [Obj.run] at h
        cases hs : b0.step op with
        | none => rw [hs] at h; simp at h
        | some b1 =>
          rw [hs] at h h2
          simp only [Option.bind_some] at h
          obtain ⟨ht, hbuf⟩ := h1 b1 hs
          have hc : Obj.Canon b1 r.type (b1.elements.map Obj.abs) := ⟨ht, rfl, Or.inl hbuf⟩
          obtain ⟨l, hl, hcan⟩ := (Obj.run_canon hc ops).1 b h
          refine ⟨l, ?_, hcan.2.1, ?_⟩
          · simp only [listRun, ← h2, Option.map_some, Option.bind_some]; exact hl
          · rw [hcan.encode.2]; simp [hm]
      · have hm' : op.mutates = false := by simpa using hm
        have hstep : b0.step op = some b0 := by
          cases op <;> simp [Op.mutates] at hm <;> simp [Obj.step, henc, hpar]
        simp only [Obj.run, hstep, Option.bind_some] at h
        obtain ⟨l, hl, h2, h3⟩ := ih h
        refine ⟨l, ?_, h2, ?_⟩
        · have : listStep (b0.elements.map Obj.abs) op = some (b0.elements.map Obj.abs) := by
            cases op <;> simp [Op.mutates] at hm <;> rfl
          simp only [listRun, this, Option.bind_some]; exact hl
        · rw [h3]; simp [hm']
  obtain ⟨l, h1, h2, h3⟩ := key ops hb
  rw [habs] at h1
  exact ⟨l, h1, h2, h3, fun ty => by rw [Obj.find_abs, h2]⟩

/-- C08: the size estimated before encoding is enough, so the encoder's buffer is never reallocated
under the iterators recorded for the sub-elements (block.cpp 352-363, 393-407), provided every
element already encoded records at least its size. -/
theorem C08_estimate_suffices (b : Obj) (h : b.SizeOk) : (Obj.encodeTo b).2.length ≤ Obj.estimate b :=
  Obj.estimate_ge b h

example : ∃ b, (Obj.ofType 7).run [.pushBack (.ofValue 8 [97]), .encode, .pushBack (.ofType 9),
    .insert 1 (.ofValue 8 [98]), .erase 0] = some b ∧
    b.encode.buf = some ([7, 5, 8, 1, 98, 9, 0], [8, 1, 98, 9, 0]) := ⟨_, rfl, by rfl⟩

/-! ## C09 -/

/-- C09 (success): `fromStream` returns a block exactly when the stream starts with a TLV element
whose canonical encoding is at most 8800 octets; the block is that element in canonical form and
the stream is left right after the element. -/
theorem C09_ok_iff (is rest : Bytes) (b : Raw) :
    fromStream is = .ok b rest ↔
      ∃ w, is = w ++ rest ∧ TlvForm w b.type b.value ∧ b.wire = tlv b.type b.value ∧
        b.wire.length ≤ 8800 := by
  unfold fromStream
  rw [readTypeSlow_eq]
  constructor
  · intro h
    split at h
    · simp at h
    rename_i type r1 h1
    rw [readVarNumberSlow_eq] at h
    split at h
    · simp at h
    rename_i length r2 h2
    obtain ⟨t, l, rfl, ht, h0, h32, hl⟩ := header_iff.mp ⟨r1, h1, h2⟩
    simp only at h
    split at h
    · simp at h
    rename_i hlim
    split at h
    · simp at h
    rename_i hwrap
    split at h
    · simp at h
    rename_i hshort
    have htl : (r2.take length).length = length := by simp; omega
    have hform := tlv_form (v := r2.take length) h0 h32 (by rw [htl]; exact hl.lt)
    have hfr := (fromRange_iff (r := ⟨type, tlv type (r2.take length), r2.take length⟩)).mpr ⟨rfl, hform⟩
    have heq : tlv type (r2.take length) = writeVarNumber type ++ writeVarNumber length ++ r2.take length := by
      simp only [tlv, htl]
    rw [← heq, hfr] at h
    simp only [StreamResult.ok.injEq] at h
    obtain ⟨rfl, rfl⟩ := h
    refine ⟨t ++ l ++ r2.take length, ?_, ⟨t, l, rfl, ht, h0, h32, htl.symm ▸ hl⟩, rfl, ?_⟩
    · rw [List.append_assoc (t ++ l), List.take_append_drop]
    · simp only [heq, List.length_append, writeVarNumber_length, htl]
      have hm : (sizeOfVarNumber type + sizeOfVarNumber length + length) % 2 ^ 64 =
        sizeOfVarNumber type + sizeOfVarNumber length + length := Nat.mod_eq_of_lt (by omega)
      rw [hm] at hlim
      unfold maxPacketSize at hlim
      omega
  · rintro ⟨w, rfl, ⟨t, l, rfl, ht, h0, h32, hl⟩, hw, hlim⟩
    obtain ⟨r1, h1, h2⟩ := (header_iff (pos := b.value ++ rest)).mpr ⟨t, l, rfl, ht, h0, h32, hl⟩
    rw [List.append_assoc, h1]
    simp only [readVarNumberSlow_eq, h2]
    have hsz : sizeOfVarNumber b.type + sizeOfVarNumber b.value.length + b.value.length ≤ 8800 := by
      rw [hw] at hlim
      simpa only [tlv, List.length_append, writeVarNumber_length] using hlim
    rw [if_neg (by
      rw [Nat.mod_eq_of_lt (by omega)]; unfold maxPacketSize; omega)]
    rw [if_neg (by omega), if_neg (by simp)]
    have hform := tlv_form (v := b.value) h0 h32 hl.lt
    have hfr := (fromRange_iff (r := b)).mpr ⟨hw, hform⟩
    rw [List.take_left', List.drop_left'] <;> try rfl
    simp only [tlv] at hfr
    rw [hfr]

/-- C09: outcome `undefined` occurs exactly when the head of the stream announces a length so large
that adding the header size wraps around 64 bits. -/
theorem C09_undefined_iff (is : Bytes) :
    fromStream is = .undefined ↔
      ∃ t l type length rest, is = t ++ l ++ rest ∧ VarForm t type ∧ 1 ≤ type ∧ type ≤ 2 ^ 32 - 1 ∧
        VarForm l length ∧ 2 ^ 64 ≤ sizeOfVarNumber type + sizeOfVarNumber length + length := by
  have hsmall : ∀ n, sizeOfVarNumber n ≤ 9 := by
    intro n; unfold sizeOfVarNumber; (repeat' split) <;> omega
  unfold fromStream
  rw [readTypeSlow_eq]
  constructor
  · intro h
    split at h
    · simp at h
    rename_i type r1 h1
    rw [readVarNumberSlow_eq] at h
    split at h
    · simp at h
    rename_i length r2 h2
    obtain ⟨t, l, rfl, ht, h0, h32, hl⟩ := header_iff.mp ⟨r1, h1, h2⟩
    simp only at h
    split at h
    · simp at h
    split at h
    · rename_i hw
      exact ⟨t, l, type, length, r2, rfl, ht, h0, h32, hl, hw⟩
    · split at h
      · simp at h
      · split at h <;> simp at h
  · rintro ⟨t, l, type, length, rest, rfl, ht, h0, h32, hl, hw⟩
    obtain ⟨r1, h1, h2⟩ := header_iff.mpr ⟨t, l, rfl, ht, h0, h32, hl⟩
    rw [h1]
    simp only [readVarNumberSlow_eq, h2]
    have := hl.lt
    have := hsmall type
    have := hsmall length
    rw [if_neg, if_pos hw]
    unfold maxPacketSize
    have : (sizeOfVarNumber type + sizeOfVarNumber length + length) % 2 ^ 64 =
      sizeOfVarNumber type + sizeOfVarNumber length + length - 2 ^ 64 := by
      rw [Nat.mod_eq_sub_mod hw, Nat.mod_eq_of_lt (by omega)]
    rw [this]; omega

/-- C09, full statement: every stream gives either a failure or a block of at most 8800 octets. -/
def C09_claim : Prop := ∀ is, fromStream is = .error ∨ ∃ b rest, fromStream is = .ok b rest

/-- C09: the full statement is false of the code: for a header announcing 2^64-1 octets the size
check `tlSize + length > MAX` is passed by wrap-around. -/
theorem C09_counterexample : ¬ C09_claim := by
  intro h
  have := h [1, 255, 255, 255, 255, 255, 255, 255, 255, 255]
  revert this
  have e : fromStream [1, 255, 255, 255, 255, 255, 255, 255, 255, 255] = .undefined := by decide
  rw [e]; simp

/-- C09, the part that holds: unless the announced length is within 14 of 2^64, a stream that does
not start with an element of at most 8800 octets is refused. Missing: the lengths in that window,
for which the claim is false. -/
theorem C09_partial (is : Bytes)
    (h : ¬ ∃ t l type length rest, is = t ++ l ++ rest ∧ VarForm t type ∧ 1 ≤ type ∧
      type ≤ 2 ^ 32 - 1 ∧ VarForm l length ∧
      2 ^ 64 ≤ sizeOfVarNumber type + sizeOfVarNumber length + length) :
    fromStream is = .error ∨
      ∃ b rest w, fromStream is = .ok b rest ∧ is = w ++ rest ∧ TlvForm w b.type b.value ∧
        b.wire.length ≤ 8800 := by
  cases hr : fromStream is with
  | error => exact Or.inl rfl
  | undefined => exact absurd ((C09_undefined_iff is).mp hr) h
  | ok b rest =>
    obtain ⟨w, h1, h2, _, h4⟩ := (C09_ok_iff is rest b).mp hr
    exact Or.inr ⟨b, rest, w, rfl, h1, h2, h4⟩

example : fromStream [8, 1, 97, 5] = .ok ⟨8, [8, 1, 97], [97]⟩ [5] ∧
    fromStream [8, 253, 0, 1, 97, 5] = .ok ⟨8, [8, 1, 97], [97]⟩ [5] ∧
    fromStream [8, 253, 0x30, 0] = .error := by decide

/-! ## C71 -/

/-- C71 for encoded blocks: `==` is equality of type and content. -/
theorem C71_equals_encoded_partial (a b : Obj) (ha : a.buf ≠ none) (hb : b.buf ≠ none) :
    a.equals b = true ↔ a.abs = b.abs := by
  cases a with
  | mk ta ba sa ea =>
    cases b with
    | mk tb bb sb eb =>
      cases ba with
      | none => simp [Obj.buf] at ha
      | some pa =>
        cases bb with
        | none => simp [Obj.buf] at hb
        | some pb =>
          simp [Obj.equals, Obj.type, Obj.valueBytes, Obj.buf, Obj.abs, Obj.content]

/-- C71: a block just made of a type, or of a type and a value, says the size of its encoding before it is encoded. -/
theorem C71_size_made (t : Nat) (v : Bytes) :
    ((Obj.ofType t).encode.buf = some (tlv t [], []) ∧ (Obj.ofType t).size = (tlv t []).length) ∧
    ((Obj.ofValue t v).encode.buf = some (tlv t v, v) ∧ (Obj.ofValue t v).size = (tlv t v).length) := by
  refine ⟨⟨rfl, ?_⟩, rfl, ?_⟩
  · simp [Obj.ofType, Obj.size, tlv, Tlv.writeVarNumber_length]
  · simp [Obj.ofValue, Obj.size, tlv, Tlv.writeVarNumber_length]; omega

/-- C71 for encoded blocks: `size()` is the size of the encoding, after any history ending in
`encode()`. -/
theorem C71_size_encoded_partial (b : Obj) (h : b.hasWire = false) :
    ∃ w v, b.encode.buf = some (w, v) ∧ b.encode.size = w.length := by
  unfold Obj.encode
  rw [h]
  obtain ⟨_, _, h3, _, h5⟩ := Obj.encodeTo_spec b
  exact ⟨_, _, by simpa using h3, by simpa using h5⟩

/-- C71, full statement for `==`: equality of type and content at any time. -/
def C71_claim : Prop := ∀ a b : Obj, a.equals b = true ↔ a.abs = b.abs

/-- C71: false of the code before `encode()`: two blocks with different elements compare equal. -/
theorem C71_counterexample : ¬ C71_claim := by
  intro h
  have := (h ((Obj.ofType 7).pushBack (.ofValue 8 [1])) ((Obj.ofType 7).pushBack (.ofValue 8 [2]))).mp
    (by decide)
  simp [Obj.abs, Obj.ofType, Obj.pushBack, Obj.ofValue, Obj.resetWire, Obj.content, Obj.contentList,
    Obj.type, tlv] at this

example : ((Obj.ofType 7).pushBack (.ofValue 8 [1])).size = 2 ∧
    ((Obj.ofType 7).pushBack (.ofValue 8 [1])).encode.size = 5 := ⟨by rfl, by rfl⟩

end Ndn.Block
