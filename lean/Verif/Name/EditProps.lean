import Verif.Name.OrderLemmas
/-
C16: naming conventions. C17: editing names. C18: sub-names. C19: hashing. C72: decoding names.
-/
namespace Ndn.Name
open Spec Tlv

/-! ### C16 -/

theorem nni_len (n : Nat) : (writeNonNegativeInteger n).length = 1 ∨ (writeNonNegativeInteger n).length = 2 ∨
    (writeNonNegativeInteger n).length = 4 ∨ (writeNonNegativeInteger n).length = 8 := by
  rw [writeNonNegativeInteger_length]; unfold sizeOfNonNegativeInteger
  (repeat' split) <;> omega

theorem isNumber_nni (n : Nat) : isNumber (writeNonNegativeInteger n) = true := by
  have := nni_len n
  simp only [isNumber, Bool.or_eq_true, decide_eq_true_eq]; omega

theorem isNumberWithMarker_nni (m : UInt8) (n : Nat) :
    isNumberWithMarker m (m :: writeNonNegativeInteger n) = true := by
  have := nni_len n
  simp only [isNumberWithMarker, List.length_cons, List.head?_cons, decide_true, Bool.and_true,
    Bool.or_eq_true, decide_eq_true_eq]
  omega

/-- What a conventional component is: its type and value for a kind, a number and a convention. -/
def Spec.convComp (marker : Bool) (k : Conv) (n : Nat) : Comp :=
  if marker then ⟨8, k.marker :: writeNonNegativeInteger n⟩ else ⟨k.typ, writeNonNegativeInteger n⟩

theorem Conv.from_eq (s : Settings) (k : Conv) (n : Nat) :
    k.from s n = some (Spec.convComp s.encodeMarker k n) := by
  unfold Conv.from Spec.convComp fromNumber mkComp
  cases s.encodeMarker with
  | true =>
    simp only [if_true]
    rw [if_pos]
    rw [ensureValid_iff]
    exact ⟨by simp, by simp, fun h => by simp at h⟩
  | false =>
    simp only [Bool.false_eq_true, if_false]
    rw [if_pos]
    rw [ensureValid_iff]
    cases k <;> exact ⟨by simp [Conv.typ], by simp [Conv.typ], fun h => by simp [Conv.typ] at h⟩

/-- C16: making a component always succeeds; when decoding accepts the convention in force it is
recognised and converts back to the same number. -/
theorem C16_roundtrip (s : Settings) (k : Conv) (n : Nat) (hn : n < 2 ^ 64)
    (hd : if s.encodeMarker then s.decodeMarker = true else s.decodeTyped = true) :
    ∃ c, k.from s n = some c ∧ k.is s c = true ∧ k.to s c = some n := by
  refine ⟨_, k.from_eq s n, ?_, ?_⟩
  · unfold Spec.convComp Conv.is
    cases h : s.encodeMarker <;> simp only [h] at hd ⊢
    · simp only [Bool.false_eq_true, if_false] at hd ⊢
      simp [hd, isNumber_nni]
    · simp only [if_true] at hd ⊢
      simp [hd, isNumberWithMarker_nni]
  · unfold Spec.convComp Conv.to
    cases h : s.encodeMarker <;> simp only [h] at hd ⊢
    · simp only [Bool.false_eq_true, if_false] at hd ⊢
      have h8 : k.typ ≠ 8 := by cases k <;> simp [Conv.typ]
      simp [hd, h8, isNumber_nni, readNniValue_write hn]
    · simp only [if_true] at hd ⊢
      simp [hd, isNumberWithMarker_nni, readNniValue_write hn]

/-- C16: under either convention a component made for one kind is recognised as no other kind; and
converting it as another kind is refused. -/
theorem C16_exclusive (s : Settings) (k k' : Conv) (n : Nat) (hk : k ≠ k') (c : Comp)
    (h : k.from s n = some c) : k'.is s c = false ∧ k'.to s c = none := by
  rw [k.from_eq] at h
  simp only [Option.some.injEq] at h
  subst h
  have hm : k.marker ≠ k'.marker := by
    revert hk; cases k <;> cases k' <;> decide
  have ht : k.typ ≠ k'.typ := by
    revert hk; cases k <;> cases k' <;> decide
  have h8 : k.typ ≠ 8 := by cases k <;> simp [Conv.typ]
  have h8' : (8 : Nat) ≠ k'.typ := by cases k' <;> simp [Conv.typ]
  have hnm : isNumberWithMarker k'.marker (k.marker :: writeNonNegativeInteger n) = false := by
    simp [isNumberWithMarker, hm]
  unfold Spec.convComp
  constructor
  · unfold Conv.is
    cases s.encodeMarker <;> simp [ht, h8, h8', hnm]
  · unfold Conv.to
    cases s.encodeMarker <;> simp [ht, h8, h8', hnm]

/-- C16: a predicate holds exactly for the values of the convention: a component is recognised as
kind `k` iff it can be converted, iff it has the right type (and marker) and a number as the rest. -/
theorem C16_is_iff_to (s : Settings) (k : Conv) (c : Comp) :
    (k.to s c).isSome = true ↔ k.is s c = true := by
  have h8 : k.typ ≠ 8 := by cases k <;> simp [Conv.typ]
  have rd : ∀ v : Bytes, (readNniValue v).isSome = true ↔
      (v.length = 1 ∨ v.length = 2 ∨ v.length = 4 ∨ v.length = 8) := by
    intro v
    unfold readNniValue readNonNegativeInteger
    constructor
    · intro h
      by_cases hl : v.length ≠ 1 ∧ v.length ≠ 2 ∧ v.length ≠ 4 ∧ v.length ≠ 8
      · rw [if_pos hl] at h; simp at h
      · omega
    · intro h
      rw [if_neg (by omega)]
      simp [readNumber]
  unfold Conv.to Conv.is
  by_cases h1 : s.decodeMarker = true ∧ c.type = 8
  · rw [if_pos h1]
    have : ¬ c.type = k.typ := by omega
    simp only [h1.1, h1.2, decide_true, Bool.true_and]
    rw [h1.2] at this
    simp only [this, decide_false, Bool.and_false, Bool.false_and, Bool.or_false]
    by_cases h2 : isNumberWithMarker k.marker c.value = true
    · rw [if_pos h2]
      simp only [h2, iff_true]
      rw [rd]
      simp only [isNumberWithMarker, Bool.and_eq_true, Bool.or_eq_true, decide_eq_true_eq] at h2
      rw [List.length_drop]
      omega
    · rw [if_neg h2]; simp [h2]
  · rw [if_neg h1]
    have hb : (s.decodeMarker && decide (c.type = 8)) = false := by
      simpa using h1
    rw [hb]
    simp only [Bool.false_and, Bool.false_or]
    by_cases h2 : s.decodeTyped = true ∧ c.type = k.typ
    · rw [if_pos h2]
      simp only [h2.1, h2.2, decide_true, Bool.true_and]
      by_cases h3 : isNumber c.value = true
      · rw [if_pos h3]
        simp only [h3, iff_true]
        rw [rd]
        simp only [isNumber, Bool.or_eq_true, decide_eq_true_eq] at h3
        omega
      · rw [if_neg h3]; simp [h3]
    · rw [if_neg h2]
      have : (s.decodeTyped && decide (c.type = k.typ)) = false := by simpa using h2
      rw [this]; simp

example : Conv.segment.from ⟨false, true, true⟩ 300 = some ⟨50, [1, 44]⟩ ∧
    Conv.segment.to ⟨false, true, true⟩ ⟨50, [1, 44]⟩ = some 300 ∧
    Conv.version.from ⟨true, true, true⟩ 7 = some ⟨8, [253, 7]⟩ := by decide

/-! ### C17 -/

/-- Calls on a Name. -/
inductive Op where
  | append (c : WComp)
  | appendName (cs : List WComp)
  | set (i : Int) (c : WComp)
  | erase (i : Int)
  | clear
  | wireEncode
  | deepCopy

def Obj.step (o : Obj) : Op → Option Obj
  | .append c => some (o.append c)
  | .appendName cs => some (o.appendName cs)
  | .set i c => o.set i c
  | .erase i => o.erase i
  | .clear => some o.clear
  | .wireEncode => some o.wireEncode.1
  | .deepCopy => some o.deepCopy

def Obj.run (o : Obj) : List Op → Option Obj
  | [] => some o
  | op :: ops => (o.step op).bind (fun o' => o'.run ops)

namespace Spec
/-- The same call on a plain list of components. -/
def listStep (l : List Comp) : Op → Option (List Comp)
  | .append c => some (l ++ [c.comp])
  | .appendName cs => some (l ++ bare cs)
  | .set i c =>
    if 0 ≤ i ∧ i < l.length then some (l.set i.toNat c.comp)
    else if i < 0 ∧ -i ≤ l.length then some (l.set (l.length - (-i).toNat) c.comp)
    else none
  | .erase i =>
    if 0 ≤ i ∧ i < l.length then some (l.eraseIdx i.toNat)
    else if i < 0 ∧ -i ≤ l.length then some (l.eraseIdx (l.length - (-i).toNat))
    else none
  | .clear => some []
  | .wireEncode => some l
  | .deepCopy => some l

def listRun (l : List Comp) : List Op → Option (List Comp)
  | [] => some l
  | op :: ops => (listStep l op).bind (fun l' => listRun l' ops)

/-- `w` is an encoding of the name `l`: a Name element whose elements are the components. -/
def EncodesName (w : Bytes) (l : List Comp) : Prop :=
  ∃ v es, Block.Spec.TlvForm w 7 v ∧ Block.Spec.ReadsAs v es ∧
    es.map (fun r => (⟨r.type, r.value⟩ : Comp)) = l

/-- Types and sizes that can be encoded. -/
def Encodable (l : List Comp) : Prop :=
  (∀ c ∈ l, 1 ≤ c.type ∧ c.type ≤ 2 ^ 32 - 1 ∧ c.value.length < 2 ^ 64) ∧
    (l.map Comp.encode).flatten.length < 2 ^ 64
end Spec

/-- The octets held, if any, are the shortest encoding, or (`Decoded`) some encoding of the name. -/
def Inv (decoded : Bool) (o : Obj) (l : List Comp) : Prop :=
  bare o.comps = l ∧ ∀ w, o.wire = some w → w = encodeComps l ∨ (decoded = true ∧ EncodesName w l)

theorem appendName_eq (o : Obj) (cs : List WComp) :
    bare (o.appendName cs).comps = bare o.comps ++ bare cs ∧
      (cs ≠ [] → (o.appendName cs).wire = none) ∧ (cs = [] → o.appendName cs = o) := by
  refine ⟨?_, ?_, ?_⟩
  · unfold Obj.appendName
    induction cs generalizing o with
    | nil => simp [bare]
    | cons c cs ih => rw [List.foldl_cons, ih]; simp [Obj.append, bare]
  · unfold Obj.appendName
    intro hne
    obtain ⟨p, c, rfl⟩ : ∃ p c, cs = p ++ [c] := ⟨_, _, (List.dropLast_concat_getLast hne).symm⟩
    simp [Obj.append]
  · rintro rfl; rfl

/-- Whether the call changes the name or renews its encoding. -/
def Op.renews : Op → Bool
  | .append _ => true
  | .appendName cs => cs ≠ []
  | .set _ _ => true
  | .erase _ => true
  | .clear => true
  | .wireEncode => false
  | .deepCopy => true

theorem map_eraseIdx' {α β} (f : α → β) (l : List α) (j : Nat) :
    (l.eraseIdx j).map f = (l.map f).eraseIdx j := by
  induction l generalizing j with
  | nil => simp
  | cons a l ih => cases j <;> simp [ih]

theorem step_inv {d : Bool} {o : Obj} {l : List Comp} (h : Inv d o l) (op : Op) :
    (∀ o', o.step op = some o' → ∃ l', listStep l op = some l' ∧ Inv d o' l' ∧
      (op.renews = true → Inv false o' l')) ∧
    (o.step op = none → listStep l op = none) := by
  obtain ⟨hb, hw⟩ := h
  have hlen : o.comps.length = l.length := by rw [← hb]; simp [bare]
  cases op with
  | append c =>
    refine ⟨?_, by simp [Obj.step]⟩
    rintro o' ⟨⟩
    exact ⟨_, rfl, ⟨by simp [Obj.append, bare, ← hb], by simp [Obj.append]⟩,
      fun _ => ⟨by simp [Obj.append, bare, ← hb], by simp [Obj.append]⟩⟩
  | appendName cs =>
    refine ⟨?_, by simp [Obj.step]⟩
    rintro o' ⟨⟩
    obtain ⟨e1, e2, e3⟩ := appendName_eq o cs
    refine ⟨_, rfl, ?_, ?_⟩
    · by_cases hc : cs = []
      · rw [e3 hc]; subst hc; simp [bare] at *; exact ⟨hb, hw⟩
      · exact ⟨by rw [e1, hb], by rw [e2 hc]; simp⟩
    · intro hr
      have hc : cs ≠ [] := by simpa [Op.renews] using hr
      exact ⟨by rw [e1, hb], by rw [e2 hc]; simp⟩
  | set i c =>
    simp only [Obj.step, Obj.set, listStep, hlen]
    have hbb : ∀ j : Nat, bare (o.comps.set j c) = l.set j c.comp := by
      intro j; rw [← hb]; simp [bare, List.map_set]
    by_cases h1 : 0 ≤ i ∧ i < (l.length : Int)
    · rw [if_pos h1]
      have e : ¬ i < 0 := by omega
      simp only [e, if_false]
      rw [if_pos h1]
      refine ⟨?_, by simp⟩
      rintro o' ⟨⟩
      exact ⟨_, rfl, ⟨hbb _, by simp⟩, fun _ => ⟨hbb _, by simp⟩⟩
    · rw [if_neg h1]
      by_cases h2 : i < 0 ∧ -i ≤ (l.length : Int)
      · rw [if_pos h2]
        simp only [h2.1, if_true]
        rw [if_pos (by omega)]
        refine ⟨?_, by simp⟩
        rintro o' ⟨⟩
        have hidx : (i + (l.length : Int)).toNat = l.length - (-i).toNat := by omega
        rw [hidx]
        exact ⟨_, rfl, ⟨hbb _, by simp⟩, fun _ => ⟨hbb _, by simp⟩⟩
      · rw [if_neg h2]
        have hn : ¬ (0 ≤ (if i < 0 then i + (l.length : Int) else i) ∧
            (if i < 0 then i + (l.length : Int) else i) < (l.length : Int)) := by
          split <;> omega
        rw [if_neg hn]
        exact ⟨by simp, by simp⟩
  | erase i =>
    simp only [Obj.step, Obj.erase, listStep, hlen]
    have hbb : ∀ j : Nat, bare (o.comps.eraseIdx j) = l.eraseIdx j := by
      intro j; rw [← hb]; exact (map_eraseIdx' _ _ _)
    by_cases h1 : 0 ≤ i ∧ i < (l.length : Int)
    · rw [if_pos h1]
      have e : i ≥ 0 := by omega
      simp only [e, if_true]
      rw [if_pos ⟨trivial, h1.2⟩]
      refine ⟨?_, by simp⟩
      rintro o' ⟨⟩
      exact ⟨_, rfl, ⟨hbb _, by simp⟩, fun _ => ⟨hbb _, by simp⟩⟩
    · rw [if_neg h1]
      by_cases h2 : i < 0 ∧ -i ≤ (l.length : Int)
      · rw [if_pos h2]
        have e : ¬ i ≥ 0 := by omega
        simp only [e, if_false]
        rw [if_pos (by omega)]
        refine ⟨?_, by simp⟩
        rintro o' ⟨⟩
        have hidx : ((l.length : Int) - -i).toNat = l.length - (-i).toNat := by omega
        rw [hidx]
        exact ⟨_, rfl, ⟨hbb _, by simp⟩, fun _ => ⟨hbb _, by simp⟩⟩
      · rw [if_neg h2]
        have hn : ¬ (0 ≤ (if i ≥ 0 then i else (l.length : Int) - -i) ∧
            (if i ≥ 0 then i else (l.length : Int) - -i) < (l.length : Int)) := by
          split <;> omega
        rw [if_neg hn]
        exact ⟨by simp, by simp⟩
  | clear =>
    refine ⟨?_, by simp [Obj.step]⟩
    rintro o' ⟨⟩
    exact ⟨_, rfl, ⟨rfl, by simp [Obj.clear]⟩, fun _ => ⟨rfl, by simp [Obj.clear]⟩⟩
  | wireEncode =>
    refine ⟨?_, by simp [Obj.step]⟩
    rintro o' ⟨⟩
    refine ⟨_, rfl, ?_, by simp [Op.renews]⟩
    unfold Obj.wireEncode
    cases hww : o.wire with
    | some w => exact ⟨hb, hw⟩
    | none =>
      refine ⟨by simp [bare, ← hb], ?_⟩
      rintro w ⟨⟩
      left; simp [← hb, bare]
  | deepCopy =>
    refine ⟨?_, by simp [Obj.step]⟩
    rintro o' ⟨⟩
    have : Inv false o.deepCopy l := by
      unfold Obj.deepCopy Obj.wireEncode
      refine ⟨by simp [bare, ← hb], ?_⟩
      rintro w ⟨⟩
      left; simp [← hb, bare]
    refine ⟨_, rfl, ⟨this.1, fun w h => ?_⟩, fun _ => this⟩
    rcases this.2 w h with h' | h'
    · exact Or.inl h'
    · simp at h'

theorem run_inv {d : Bool} (ops : List Op) {o : Obj} {l : List Comp} (h : Inv d o l) :
    (∀ o', o.run ops = some o' → ∃ l', listRun l ops = some l' ∧ Inv d o' l' ∧
      ((∃ op ∈ ops, op.renews = true) → Inv false o' l')) ∧
    (o.run ops = none → listRun l ops = none) := by
  induction ops generalizing o l d with
  | nil =>
    refine ⟨?_, by simp [Obj.run]⟩
    rintro o' ⟨⟩
    exact ⟨l, rfl, h, by simp⟩
  | cons op ops ih =>
    obtain ⟨h1, h2⟩ := step_inv h op
    simp only [Obj.run, listRun]
    cases hs : o.step op with
    | none => rw [h2 hs]; simp
    | some o1 =>
      obtain ⟨l1, e1, i1, r1⟩ := h1 o1 hs
      rw [e1]
      simp only [Option.bind_some]
      refine ⟨?_, (ih i1).2⟩
      intro o' ho'
      obtain ⟨l', e', i', r'⟩ := (ih i1).1 o' ho'
      refine ⟨l', e', i', ?_⟩
      rintro ⟨op', hm, hr⟩
      rcases List.mem_cons.mp hm with rfl | hm
      · obtain ⟨l'', e'', i'', _⟩ := (ih (r1 hr)).1 o' ho'
        rw [e'] at e''
        cases e''
        exact i''
      · exact r' ⟨op', hm, hr⟩

theorem encodeComps_encodes (l : List Comp) (h : Encodable l) : EncodesName (encodeComps l) l := by
  have hv : (l.flatMap Comp.encode).length < 2 ^ 64 := by
    have := h.2; rwa [List.flatMap_def]
  refine ⟨l.flatMap Comp.encode, l.map (fun c => ⟨c.type, Comp.encode c, c.value⟩), ?_, ?_, ?_⟩
  · exact Block.tlv_form (by decide) (by decide) hv
  · refine ⟨by simp [List.flatMap_def, Function.comp_def], ?_⟩
    intro e he
    obtain ⟨c, hc, rfl⟩ := List.mem_map.mp he
    obtain ⟨h1, h2, h3⟩ := h.1 c hc
    exact Block.tlv_form h1 h2 h3
  · simp [Function.comp_def]

/-- Decoding octets as a name: `Name(Block(bytes))`. -/
def decodeName (w : Bytes) : Option (List Comp) :=
  match Block.fromBuffer w with
  | none => none
  | some (b, _) => (Obj.wireDecode b).map (fun o => bare o.comps)

theorem decodeName_of_encodes {w : Bytes} {l : List Comp} (h : EncodesName w l) : decodeName w = some l := by
  obtain ⟨v, es, h1, h2, h3⟩ := h
  have hb : Block.fromBuffer w = some (⟨7, w, v⟩, []) := by
    rw [Block.fromBuffer_iff]; exact ⟨by simp, h1⟩
  unfold decodeName
  rw [hb]
  simp only [Obj.wireDecode]
  rw [if_neg (by simp), Block.parseElements_iff.mpr h2]
  simp [← h3, bare, Function.comp_def]

/-- A name object obtained by decoding satisfies the invariant. -/
theorem decode_inv {b : Block.Raw} {o : Obj} (hf : Block.Spec.TlvForm b.wire b.type b.value)
    (h : Obj.wireDecode b = some o) : Inv true o (bare o.comps) := by
  unfold Obj.wireDecode at h
  split at h
  · simp at h
  · rename_i ht
    cases hp : Block.parseElements b.value with
    | none => rw [hp] at h; simp at h
    | some es =>
      rw [hp] at h
      simp only [Option.some.injEq] at h
      subst h
      refine ⟨rfl, ?_⟩
      rintro w ⟨⟩
      right
      refine ⟨rfl, b.value, es, ?_, Block.parseElements_iff.mp hp, ?_⟩
      · have : b.type = 7 := by simpa using ht
        rwa [this] at hf
      · simp [bare, Function.comp_def]

/-- C17: after any calls on a name that was built or decoded, the name's components are those of the
same calls on a plain list, calls with an index outside the name are exactly the undefined ones, and
the encoding decodes to the current components. -/
theorem C17_history (o : Obj) (ops : List Op)
    (hstart : o = Obj.empty ∨ ∃ b, Block.Spec.TlvForm b.wire b.type b.value ∧ Obj.wireDecode b = some o) :
    (o.run ops = none ↔ listRun (bare o.comps) ops = none) ∧
    ∀ o', o.run ops = some o' → listRun (bare o.comps) ops = some (bare o'.comps) ∧
      (Encodable (bare o'.comps) → decodeName o'.wireEncode.2 = some (bare o'.comps)) := by
  have hinv : Inv true o (bare o.comps) := by
    rcases hstart with rfl | ⟨b, hf, hb⟩
    · exact ⟨rfl, by simp [Obj.empty]⟩
    · exact decode_inv hf hb
  obtain ⟨h1, h2⟩ := run_inv ops hinv
  have part2 : ∀ o', o.run ops = some o' → listRun (bare o.comps) ops = some (bare o'.comps) ∧
      (Encodable (bare o'.comps) → decodeName o'.wireEncode.2 = some (bare o'.comps)) := by
    intro o' ho'
    obtain ⟨l', e', ⟨hb, hw⟩, _⟩ := h1 o' ho'
    subst hb
    refine ⟨e', fun henc => ?_⟩
    unfold Obj.wireEncode
    cases hww : o'.wire with
    | none => exact decodeName_of_encodes (encodeComps_encodes _ henc)
    | some w =>
      simp only
      rcases hw w hww with h | h
      · rw [h]; exact decodeName_of_encodes (encodeComps_encodes _ henc)
      · exact decodeName_of_encodes h.2
  refine ⟨⟨h2, ?_⟩, part2⟩
  intro hn
  cases hr : o.run ops with
  | none => rfl
  | some o' => have := (part2 o' hr).1; rw [hn] at this; simp at this

/-- A name freshly built from components by `append`. -/
def fresh (l : List Comp) : Obj := l.foldl (fun o c => o.append ⟨none, c⟩) Obj.empty

theorem fresh_enc (l : List Comp) : (fresh l).wireEncode.2 = encodeComps l := by
  have key : ∀ (l : List Comp) (o : Obj), o.wire = none →
      (l.foldl (fun o c => o.append ⟨none, c⟩) o).wire = none ∧
      bare (l.foldl (fun o c => o.append ⟨none, c⟩) o).comps = bare o.comps ++ l := by
    intro l
    induction l with
    | nil => intro o h; simp [h]
    | cons c l ih =>
      intro o h
      obtain ⟨h1, h2⟩ := ih (o.append ⟨none, c⟩) rfl
      exact ⟨h1, by rw [List.foldl_cons, h2]; simp [Obj.append, bare]⟩
  obtain ⟨h1, h2⟩ := key l Obj.empty rfl
  unfold Obj.wireEncode
  rw [show (fresh l).wire = none from h1]
  simp only
  rw [show (fresh l).comps.map (·.comp) = l from by simpa [bare, Obj.empty, fresh] using h2]

/-- C17: a name built from scratch, or changed at least once since it was decoded, has the encoding
of a freshly built equal name. -/
theorem C17_fresh (o : Obj) (ops : List Op) (o' : Obj)
    (hstart : o = Obj.empty ∨ ((∃ b, Block.Spec.TlvForm b.wire b.type b.value ∧ Obj.wireDecode b = some o) ∧
      ∃ op ∈ ops, op.renews = true))
    (h : o.run ops = some o') : o'.wireEncode.2 = (fresh (bare o'.comps)).wireEncode.2 := by
  have hinv : Inv false o' (bare o'.comps) := by
    rcases hstart with rfl | ⟨⟨b, hf, hb⟩, hr⟩
    · have hi : Inv false Obj.empty (bare Obj.empty.comps) := ⟨rfl, by simp [Obj.empty]⟩
      obtain ⟨l', _, hi', _⟩ := (run_inv ops hi).1 o' h
      have := hi'.1; subst this; exact hi'
    · obtain ⟨l', _, _, hi'⟩ := (run_inv ops (decode_inv hf hb)).1 o' h
      have hi'' := hi' hr
      have := hi''.1; subst this; exact hi''
  rw [fresh_enc]
  unfold Obj.wireEncode
  cases hww : o'.wire with
  | none => rfl
  | some w =>
    rcases hinv.2 w hww with h | h
    · exact h
    · simp at h

example : (Obj.empty.run [.append ⟨none, ⟨8, [65]⟩⟩, .wireEncode, .append ⟨none, ⟨8, [66]⟩⟩,
    .set (-2) ⟨none, ⟨8, [67, 67]⟩⟩, .erase (-1)]).map (fun o => o.wireEncode.2) =
    some [7, 4, 8, 2, 67, 67] := by decide

/-! ### C18 -/

/-- C18: `at` with a non-negative or negative index. -/
theorem C18_at {α} (n : List α) (i : Nat) :
    at' n (i : Int) = n[i]? ∧
    (1 ≤ i → at' n (-(i : Int)) = if i ≤ n.length then n[n.length - i]? else none) := by
  unfold at'
  constructor
  · by_cases h : i < n.length
    · rw [if_neg (by omega), if_neg (by omega)]; simp
    · rw [if_pos (by omega), List.getElem?_eq_none (by omega)]
  · intro h1
    by_cases h : i ≤ n.length
    · rw [if_neg (by omega), if_pos h, if_pos (by omega)]
      rw [show (-(i : Int) + (n.length : Int)).toNat = n.length - i by omega]
    · rw [if_pos (by omega), if_neg h]

theorem drop_take_getSub {α} (n : List α) (i k : Nat) : (n.take (min n.length (i + k))).drop i = (n.drop i).take k := by
  rw [List.drop_take]
  by_cases h : i + k ≤ n.length
  · rw [show min n.length (i + k) - i = k by omega]
  · rw [List.take_of_length_le (l := n.drop i) (by simp; omega),
      List.take_of_length_le (l := n.drop i) (by simp; omega)]

/-- C18: `getSubName(i, k)`: components from the `i`-th on, at most `k` (all of them for `npos`); a
negative start counts from the end, and is the beginning when it reaches beyond it. Holds whenever
`start + k` does not exceed 64 bits. -/
theorem C18_getSubName_partial {α} (n : List α) (hn : n.length < 2 ^ 63) (i k : Nat) :
    (i + k < 2 ^ 64 → getSubName n (i : Int) k = (n.drop i).take k) ∧
    getSubName n (i : Int) (2 ^ 64 - 1) = n.drop i ∧
    (1 ≤ i → n.length - i + k < 2 ^ 64 →
      getSubName n (-(i : Int)) k = (n.drop (n.length - i)).take k) := by
  refine ⟨?_, ?_, ?_⟩
  · intro h
    unfold getSubName
    simp only [show ¬ (i : Int) < 0 by omega, if_false, Int.toNat_natCast]
    split
    · rw [Nat.mod_eq_of_lt h, drop_take_getSub]
    · rename_i hk
      have hk : k = 2 ^ 64 - 1 := by simpa using hk
      rw [List.take_length, List.take_of_length_le (by simp; omega)]
  · unfold getSubName
    simp only [show ¬ (i : Int) < 0 by omega, if_false, Int.toNat_natCast, ne_eq, not_true_eq_false,
      List.take_length]
  · intro h1 h
    unfold getSubName
    simp only [show -(i : Int) < 0 by omega, if_true]
    have hs : (if -(i : Int) + (n.length : Int) < 0 then 0 else (-(i : Int) + (n.length : Int)).toNat) =
        n.length - i := by
      split <;> omega
    rw [hs]
    split
    · rw [Nat.mod_eq_of_lt h, drop_take_getSub]
    · rename_i hk
      have hk : k = 2 ^ 64 - 1 := by simpa using hk
      rw [List.take_length, List.take_of_length_le (by simp; omega)]

/-- C18, full claim for `getSubName`: any count. -/
def C18_getSubName_claim : Prop := ∀ (n : List Comp) (i k : Nat), n.length < 2 ^ 63 → i < 2 ^ 63 → k < 2 ^ 64 →
  getSubName n (i : Int) k = (n.drop i).take k

/-- C18: false of the code for a very large count other than `npos`: the sum wraps around and the
result is empty, although "all components until the end" is documented. -/
theorem C18_getSubName_counterexample : ¬ C18_getSubName_claim := by
  intro h
  have := h [⟨8, [65]⟩, ⟨8, [66]⟩, ⟨8, [67]⟩] 2 (2 ^ 64 - 2) (by decide) (by decide) (by decide)
  revert this; decide

/-- C18: `getPrefix(k)` is the first `k` components, `getPrefix(-k)` all but the last `k`, when the
name has at least `k` components. -/
theorem C18_getPrefix_partial {α} (n : List α) (hn : n.length < 2 ^ 63) (k : Nat) :
    (k < 2 ^ 63 → getPrefix n (k : Int) = n.take k) ∧
    (1 ≤ k → k ≤ n.length → getPrefix n (-(k : Int)) = n.take (n.length - k)) := by
  constructor
  · intro hk
    unfold getPrefix
    rw [if_neg (by omega)]
    rw [show ((k : Int).toNat) = k by omega]
    have := (C18_getSubName_partial n hn 0 k).1 (by omega)
    simpa using this
  · intro h1 h2
    unfold getPrefix
    rw [if_pos (by omega)]
    have e : (((n.length : Int) + -(k : Int)) % 2 ^ 64).toNat = n.length - k := by omega
    rw [e]
    have := (C18_getSubName_partial n hn 0 (n.length - k)).1 (by omega)
    simpa using this

/-- C18, full claim for `getPrefix` with a negative argument. -/
def C18_getPrefix_claim : Prop := ∀ (n : List Comp) (k : Nat), n.length < 2 ^ 63 → 1 ≤ k → k < 2 ^ 63 →
  getPrefix n (-(k : Int)) = n.take (n.length - k)

/-- C18: false of the code when more components are to be dropped than there are: the whole name is
returned instead of the empty one. -/
theorem C18_getPrefix_counterexample : ¬ C18_getPrefix_claim := by
  intro h
  have := h [⟨8, [65]⟩] 2 (by decide) (by decide) (by decide)
  revert this; decide

/-! ### C19 -/

/-- C19: equal names that were built, or decoded from shortest encodings, hash equally whatever the
hash function over octets. -/
theorem C19_hash_partial {α} (H : Bytes → α) (a b : Obj)
    (ha : ∀ w, a.wire = some w → w = encodeComps (bare a.comps))
    (hb : ∀ w, b.wire = some w → w = encodeComps (bare b.comps))
    (h : bare a.comps = bare b.comps) : a.hash H = b.hash H := by
  have e : ∀ o : Obj, (∀ w, o.wire = some w → w = encodeComps (bare o.comps)) →
      o.wireEncode.2 = encodeComps (bare o.comps) := by
    intro o ho
    unfold Obj.wireEncode
    cases hw : o.wire with
    | none => rfl
    | some w => exact ho w hw
  unfold Obj.hash
  rw [e a ha, e b hb, h]

/-- C19, full claim: all names, including those decoded from other encodings. -/
def C19_claim : Prop := ∀ (H : Bytes → Bytes) (r r' : Block.Raw) (a b : Obj),
  Block.Spec.TlvForm r.wire r.type r.value → Block.Spec.TlvForm r'.wire r'.type r'.value →
  Obj.wireDecode r = some a → Obj.wireDecode r' = some b →
  equals a.comps b.comps = true → a.hash H = b.hash H

/-- C19: false of the code: `/A` decoded from `07 03 08 01 41` and from `07 FD 00 03 08 01 41`. The
hash is of the octets, so any hash that separates them gives different values. -/
theorem C19_counterexample : ¬ C19_claim := by
  intro h
  have := h id ⟨7, [7, 3, 8, 1, 65], [8, 1, 65]⟩ ⟨7, [7, 253, 0, 3, 8, 1, 65], [8, 1, 65]⟩
    ⟨some [7, 3, 8, 1, 65], [⟨some [8, 1, 65], ⟨8, [65]⟩⟩]⟩
    ⟨some [7, 253, 0, 3, 8, 1, 65], [⟨some [8, 1, 65], ⟨8, [65]⟩⟩]⟩
    ⟨[7], [3], rfl, .one 7 (by decide), by decide, by decide, .one 3 (by decide)⟩
    ⟨[7], [253, 0, 3], rfl, .one 7 (by decide), by decide, by decide, .three 0 3⟩
    (by decide) (by decide) (by decide)
  revert this; decide

/-! ### C72 -/

/-- C72, claim: a name that was decoded consists of valid components. -/
def C72_claim : Prop := ∀ (w : Bytes) (l : List Comp), decodeName w = some l → ValidName l

/-- C72: false of the code: no component is checked on decoding a name; e.g. a digest component of
one octet, or TLV-TYPE 65536. -/
theorem C72_counterexample : ¬ C72_claim := by
  intro h
  have := h [7, 3, 1, 1, 65] [⟨1, [65]⟩] (by decide) ⟨1, [65]⟩ (by simp)
  have := this.2.2 (Or.inl rfl)
  simp at this

/-- C72, the part that holds: decoding a Name element succeeds exactly when the value is a sequence
of TLV elements, which become the components; their types are in 1..2^32-1. -/
theorem C72_decode_partial (w : Bytes) (l : List Comp) :
    (decodeName w = some l ↔ ∃ e rest, w = e ++ rest ∧ EncodesName e l) ∧
    (decodeName w = some l → ∀ c ∈ l, 1 ≤ c.type ∧ c.type ≤ 2 ^ 32 - 1) := by
  have main : decodeName w = some l ↔ ∃ e rest, w = e ++ rest ∧ EncodesName e l := by
    constructor
    · intro h
      unfold decodeName at h
      cases hb : Block.fromBuffer w with
      | none => rw [hb] at h; simp at h
      | some p =>
        obtain ⟨b, rest⟩ := p
        rw [hb] at h
        simp only at h
        obtain ⟨h1, h2⟩ := Block.fromBuffer_iff.mp hb
        cases ho : Obj.wireDecode b with
        | none => rw [ho] at h; simp at h
        | some o =>
          rw [ho] at h
          simp only [Option.map_some, Option.some.injEq] at h
          subst h
          refine ⟨b.wire, rest, h1, ?_⟩
          unfold Obj.wireDecode at ho
          split at ho
          · simp at ho
          · rename_i ht
            have ht' : b.type = 7 := by simpa using ht
            cases hp : Block.parseElements b.value with
            | none => rw [hp] at ho; simp at ho
            | some es =>
              rw [hp] at ho
              simp only [Option.some.injEq] at ho
              subst ho
              rw [ht'] at h2
              exact ⟨b.value, es, h2, Block.parseElements_iff.mp hp, by simp [bare, Function.comp_def]⟩
    · rintro ⟨e, rest, rfl, v, es, h1, h2, h3⟩
      have hb : Block.fromBuffer (e ++ rest) = some (⟨7, e, v⟩, rest) := by
        rw [Block.fromBuffer_iff]; exact ⟨rfl, h1⟩
      unfold decodeName
      rw [hb]
      simp only [Obj.wireDecode]
      rw [if_neg (by simp), Block.parseElements_iff.mpr h2]
      simp [← h3, bare, Function.comp_def]
  refine ⟨main, ?_⟩
  intro h c hc
  obtain ⟨e, rest, _, v, es, _, h2, h3⟩ := main.mp h
  subst h3
  obtain ⟨r, hr, rfl⟩ := List.mem_map.mp hc
  obtain ⟨_, _, _, _, a, b, _⟩ := h2.2 r hr
  exact ⟨a, b⟩

end Ndn.Name
