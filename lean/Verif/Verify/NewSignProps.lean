import Verif.Verify.SignProps
import Verif.Interest.SignProps
/-
C142: an Interest signed in the new format.
-/
namespace Ndn.Verify
open Ndn.Tlv Ndn.Block Ndn.Block.Spec Ndn.Name Ndn.Name.Spec Ndn.Packet Ndn.Packet.Spec Ndn.Interest Ndn.Interest.Spec Ndn.Pipe Ndn.Verify.Spec

namespace Spec

/-- The name of an Interest without the digest of the parameters, which must be its last component if there are parameters. -/
def NameWithout (f : IFields) (base : List Comp) : Prop :=
  (f.params = [] ∧ f.name = base) ∨ (f.params ≠ [] ∧ ∃ d, f.name = base ++ [d] ∧ IsDigest d)

/-- The parameters to be signed: those of the Interest, which may be empty, and the signature information. -/
def toSign (f : IFields) (s : SigInfo) : List Raw :=
  (if f.params = [] then [binaryBlock 36 []] else f.params) ++ [binaryBlock 44 (wires s.elems)]

/-- The octets to be signed. -/
def message (f : IFields) (base : List Comp) (s : SigInfo) : Bytes := compOctets base ++ wires (toSign f s)

/-- The Interest with a signature. -/
def withSignature (H : Bytes → Bytes) (f : IFields) (base : List Comp) (s : SigInfo) (rnd sig : Bytes) : IFields :=
  { f with
    nonce := some (f.nonce.getD rnd)
    params := toSign f s ++ [binaryBlock 46 sig]
    name := base ++ [⟨2, H (wires (toSign f s ++ [binaryBlock 46 sig]))⟩] }

end Spec

open Spec

theorem tlvBytes_mono {t : Nat} {a b : Bytes} (h : a.length ≤ b.length) : (tlvBytes t a).length ≤ (tlvBytes t b).length := by
  have : (writeVarNumber a.length).length ≤ (writeVarNumber b.length).length := by
    unfold writeVarNumber
    repeat' split
    all_goals simp [beBytes_length] <;> omega
  unfold tlvBytes
  simp only [List.length_append]
  omega

/-- `addOrReplace` on a name in which the digest is last or missing. -/
theorem addOrReplace_last {H : Bytes → Bytes} {base : List Comp} (hb : digests base = []) (ps : List Raw) :
    addOrReplace H base ps = base ++ [⟨2, H (wires ps)⟩] ∧
    ∀ d, IsDigest d → addOrReplace H (base ++ [d]) ps = base ++ [⟨2, H (wires ps)⟩] := by
  constructor
  · unfold addOrReplace
    rw [if_pos (findDigest_none.mpr hb)]
    rfl
  · intro d hd
    have h1 : digests (base ++ [d]) = [d] := by rw [digests_append, hb, digests_cons_pos hd]; rfl
    unfold addOrReplace
    rcases findDigest_spec (base ++ [d]) with ⟨g, _⟩ | ⟨a, c, b, g1, g2, g3, g4, g5, g6⟩ | ⟨g, _⟩
    · rw [h1] at g; cases g
    · rw [g6, if_neg (by omega)]
      simp only [Int.toNat_natCast]
      have hb0 : b = [] := by
        rcases List.eq_nil_or_concat b with h | ⟨b', x, rfl⟩
        · exact h
        · exfalso
          rw [List.concat_eq_append, show a ++ c :: (b' ++ [x]) = (a ++ c :: b') ++ [x] by simp] at g1
          have := (List.append_inj' g1 rfl).2
          simp only [List.cons.injEq, and_true] at this
          subst this
          have : d ∈ digests (b' ++ [d]) := by simp [digests, hd]
          rw [List.concat_eq_append] at g4
          rw [g4] at this; cases this
      subst hb0
      have := List.append_inj' g1 rfl
      rw [this.1, List.set_append_right _ _ (by simp)]
      simp only [Nat.sub_self, List.set_cons_zero]
      rfl
    · rw [h1] at g; simp at g

theorem firstParam_absent {t : Nat} {ps : List Raw} (h : ∀ e ∈ ps, e.type ≠ t) : firstParam t ps = ps.length := by
  unfold firstParam
  rw [List.findIdx_eq_length_of_false]
  intro e he; simpa using h e he

theorem takeWhile_all {l : List Raw} {p : Raw → Bool} (h : ∀ e ∈ l, p e = true) : l.takeWhile p = l := by
  induction l with
  | nil => rfl
  | cons x l ih => rw [List.takeWhile_cons, if_pos (h x (by simp)), ih (fun e he => h e (by simp [he]))]

/-- The ranges to be signed of an Interest that is encoded for it. -/
theorem extract_fresh (H : Bytes → Bytes) (auto : Bool) (f : IFields) (rnd : Bytes)
    (h : InterestWF H { f with nonce := some (f.nonce.getD rnd) }) (hl : ∃ c, f.name.getLast? = some c ∧ c.type = 2)
    (h44 : ∃ s ∈ f.params, s.type = 44) :
    ∃ b, (⟨f, none⟩ : IObj).extractSignedRanges H auto rnd = (⟨{ f with nonce := some (f.nonce.getD rnd) }, some b⟩, some
      (wires (nameElems f.name.dropLast), wires (f.params.takeWhile (fun e => e.type ≠ 46)))) := by
  obtain ⟨b, hb, he⟩ := C28_wireEncode H auto ⟨f, none⟩ rnd rfl h
  obtain ⟨b', c1, c2, c3⟩ := C31_encoded H auto _ h hl h44
  have hbb : b = b' := by
    obtain ⟨d1, d2, d3, d4⟩ := encode_block h auto
    rw [d3] at c1
    simp only [Option.some.injEq, Prod.mk.injEq, and_true] at c1
    unfold IObj.wireEncode at he
    have e1 : f.encodable = true := d1
    have e2 : ((⟨f, none⟩ : IObj).getNonce rnd).1.f = { f with nonce := some (f.nonce.getD rnd) } := by
      unfold IObj.getNonce
      cases hn : f.nonce with
      | none => simp
      | some n =>
        rcases f with ⟨a1, a2, a3, a4, a5, a6, a7, a8⟩
        simp only at hn
        subst hn
        rfl
    simp only [e1, Bool.not_true, Bool.false_eq_true, if_false, e2, d2] at he
    split at he
    · simp only [Prod.mk.injEq, Option.some.injEq] at he
      rw [← he.2, c1]
    · simp at he
  subst hbb
  refine ⟨b, ?_⟩
  unfold IObj.extractSignedRanges
  rw [he]
  simp only [c3]

/-- The steps of signing with the signature `sig`, and what the receiver makes of the outcome. -/
theorem new_core_wf (H : Bytes → Bytes) (hH : ∀ x, (H x).length = 32) (auto : Bool) (f : IFields) (wire : Option Raw) (base : List Comp)
    (s : SigInfo) (sig : Bytes) (rnd : Bytes) {ve : Parsed → Bool} {V : Option Nat → Bytes → Bytes → Bool} (hv : Verifies ve V)
    (hw : InterestWF H { f with nonce := some (f.nonce.getD rnd) }) (hb : NameWithout f base)
    (hun : ∀ e ∈ f.params, e.type ≠ 44 ∧ e.type ≠ 46) (hs : SigWF s)
    (hsize : (withSignature H f base s rnd sig).encode.length < 2 ^ 64) :
    (∃ o1 o2 r1 r2, (⟨f, wire⟩ : IObj).setSigInfo H ⟨none, s⟩ = (true, o1) ∧ o1.extractSignedRanges H auto rnd = (o2, some (r1, r2)) ∧
      r1 ++ r2 = message f base s ∧ o2.setSigValue H sig = (true, ⟨withSignature H f base s rnd sig, none⟩)) ∧
    checkInterest H auto ve (withSignature H f base s rnd sig).encode = some (V s.type (message f base s) sig) ∧
    InterestWF H (withSignature H f base s rnd sig) := by
  generalize hm : message f base s = m at *
  obtain ⟨n0, hn0⟩ : ∃ n, some (f.nonce.getD rnd) = some n := ⟨_, rfl⟩
  -- the parameters
  generalize hps : (if f.params = [] then [binaryBlock 36 []] else f.params) = ps at *
  have hq : toSign f s = ps ++ [binaryBlock 44 (wires s.elems)] := by unfold toSign; rw [hps]
  have hpun : ∀ e ∈ ps, e.type ≠ 44 ∧ e.type ≠ 46 := by
    rw [← hps]; split
    · intro e he; simp only [List.mem_singleton] at he; subst he; exact ⟨by simp [binaryBlock], by simp [binaryBlock]⟩
    · exact hun
  have hpwf : (∀ b ∈ ps, RawWF b ∧ Ignorable b) ∧ (∃ p t, ps = p :: t ∧ p.type = 36 ∧ ∀ b ∈ t, b.type ≠ 34 ∧ b.type ≠ 36) := by
    rw [← hps]; split
    · refine ⟨?_, _, [], rfl, rfl, by simp⟩
      intro b hb; simp only [List.mem_singleton] at hb; subst hb
      exact ⟨binaryBlock_wf (by decide) (by decide) (by decide), by decide, by decide⟩
    · rename_i hne
      refine ⟨hw.params, ?_⟩
      cases hp : f.params with
      | nil => exact absurd hp hne
      | cons p t =>
        refine ⟨p, t, rfl, hw.params0 p (by simp [hp]), ?_⟩
        intro b hb; exact hw.params1 b (by simp [hp, hb])
  obtain ⟨hpwf, p0, pt, hp0, hp36, hpt⟩ := hpwf
  -- the name
  have hdb : digests base = [] := by
    rcases hb with ⟨h1, h2⟩ | ⟨h1, d, h2, h3⟩
    · rcases hw.digest with ⟨_, g⟩ | ⟨g, _⟩
      · rw [← h2]; exact g
      · exact absurd h1 g
    · rcases hw.digest with ⟨g, _⟩ | ⟨_, g⟩
      · exact absurd g h1
      · dsimp only at g
        rw [h2, digests_append, digests_cons_pos h3] at g
        have := congrArg List.length g
        simp only [List.length_append, List.length_cons, List.length_nil] at this
        exact List.eq_nil_of_length_eq_zero (by omega)
  have hbwf : NameWF base := by
    have := hw.name
    rcases hb with ⟨_, h2⟩ | ⟨_, d, h2, _⟩
    · dsimp only at this; rw [h2] at this; exact this
    · dsimp only at this; rw [h2] at this
      intro c hc; exact this c (by simp [hc])
  have hname : ∀ qs, addOrReplace H f.name qs = base ++ [⟨2, H (wires qs)⟩] := by
    intro qs
    rcases hb with ⟨_, h2⟩ | ⟨_, d, h2, h3⟩
    · rw [h2]; exact (addOrReplace_last hdb qs).1
    · rw [h2]; exact (addOrReplace_last hdb qs).2 d h3
  have hdig : ∀ x, IsDigest ⟨2, H x⟩ := fun x => ⟨rfl, hH x⟩
  -- the Interest before the signature value
  let f1 : IFields := { f with params := toSign f s, name := base ++ [⟨2, H (wires (toSign f s))⟩] }
  let f1' : IFields := { f1 with nonce := some (f.nonce.getD rnd) }
  let f2 : IFields := withSignature H f base s rnd sig
  have hlen : f1'.encode.length ≤ f2.encode.length := by
    rw [IFields.encode_eq, IFields.encode_eq]
    apply tlvBytes_mono
    have hn : (encodeComps f1'.name).length = (encodeComps f2.name).length := by
      have e1 : f1'.name = base ++ [⟨2, H (wires (toSign f s))⟩] := rfl
      have e2 : f2.name = base ++ [⟨2, H (wires (toSign f s ++ [binaryBlock 46 sig]))⟩] := rfl
      rw [e1, e2]
      unfold encodeComps
      apply Nat.le_antisymm
      all_goals
        apply tlvBytes_mono
        simp [Comp.encode, tlvBytes, hH]
    have hh : f1'.head = f2.head := rfl
    have e3 : f1'.params = toSign f s := rfl
    have e4 : f2.params = toSign f s ++ [binaryBlock 46 sig] := rfl
    unfold IFields.elems
    rw [List.map_cons, List.map_cons, List.flatten_cons, List.flatten_cons, nameRaw_wire, nameRaw_wire, hh, e3, e4,
      ← List.append_assoc, List.map_append (l₁ := f2.head ++ toSign f s), List.flatten_append]
    simp only [List.length_append]
    omega
  have hsize2 : f2.encode.length < 2 ^ 64 := hsize
  have hsub : ∀ e ∈ f2.params, e.wire.length < 2 ^ 64 := by
    intro e he
    have h1 := flatten_mem_le (l := f2.elems) (e := e) (by unfold IFields.elems; simp [he])
    rw [IFields.encode_eq] at hsize2
    have h2 := tlvBytes_ge 5 ((f2.elems.map Raw.wire).flatten)
    omega
  have hinfo : RawWF (binaryBlock 44 (wires s.elems)) := binaryBlock_wf (by decide) (by decide) (SigInfo.elems_size hs)
  have hval : RawWF (binaryBlock 46 sig) := by
    refine binaryBlock_wf (by decide) (by decide) ?_
    have := hsub (binaryBlock 46 sig) (by show _ ∈ toSign f s ++ [binaryBlock 46 sig]; simp)
    have h2 := tlvBytes_ge 46 sig
    have h3 : (binaryBlock 46 sig).wire = tlvBytes 46 sig := rfl
    rw [h3] at this
    omega
  have hnwf : ∀ x, NameWF (base ++ [⟨2, H x⟩]) := by
    intro x c hc
    simp only [List.mem_append, List.mem_singleton] at hc
    rcases hc with hc | rfl
    · exact hbwf c hc
    · exact ⟨by simp, by simp⟩
  have mkdig : ∀ qs : List Raw, qs ≠ [] → DigestOk H (base ++ [⟨2, H (wires qs)⟩]) qs := by
    intro qs hne
    refine Or.inr ⟨hne, ?_⟩
    rw [digests_append, hdb, digests_cons_pos (hdig _)]
    rfl
  have hwf1 : InterestWF H f1' := by
    refine ⟨hnwf _, (by simp [f1', f1]), mkdig _ (by rw [hq]; simp), hw.hint, hw.nonce, hw.lifetime, ?_, ?_, ?_, by omega⟩
    · intro b hb
      have hb : b ∈ toSign f s := hb
      rw [hq] at hb
      simp only [List.mem_append, List.mem_singleton] at hb
      rcases hb with hb | rfl
      · exact hpwf b hb
      · exact ⟨hinfo, by simp [Ignorable, binaryBlock, isCriticalType]⟩
    · intro b hb
      have hb : b ∈ (toSign f s).head? := hb
      rw [hq, hp0] at hb
      simp at hb; subst hb; exact hp36
    · intro b hb
      have hb : b ∈ (toSign f s).tail := hb
      rw [hq, hp0] at hb
      simp only [List.cons_append, List.tail_cons, List.mem_append, List.mem_singleton] at hb
      rcases hb with hb | rfl
      · exact hpt b hb
      · simp [binaryBlock]
  have hwf2 : InterestWF H f2 := by
    refine ⟨hnwf _, (by simp [f2, withSignature]), mkdig _ (by simp), hw.hint, hw.nonce, hw.lifetime, ?_, ?_, ?_, hsize2⟩
    · intro b hb
      have hb : b ∈ toSign f s ++ [binaryBlock 46 sig] := hb
      simp only [List.mem_append, List.mem_singleton] at hb
      rcases hb with hb | rfl
      · exact hwf1.params b hb
      · exact ⟨hval, by simp [Ignorable, binaryBlock, isCriticalType]⟩
    · intro b hb
      have hb : b ∈ (toSign f s ++ [binaryBlock 46 sig]).head? := hb
      rw [hq, hp0] at hb
      simp at hb; subst hb; exact hp36
    · intro b hb
      have hb : b ∈ (toSign f s ++ [binaryBlock 46 sig]).tail := hb
      rw [hq, hp0] at hb
      simp only [List.cons_append, List.tail_cons, List.mem_append, List.mem_singleton] at hb
      rcases hb with (hb | rfl) | rfl
      · exact hpt b hb
      · simp [binaryBlock]
      · simp [binaryBlock]
  -- the two halves
  have htw1 : (toSign f s).takeWhile (fun e => e.type ≠ 46) = toSign f s := by
    refine takeWhile_all ?_
    intro e he
    rw [hq] at he
    simp only [List.mem_append, List.mem_singleton] at he
    rcases he with he | rfl
    · simpa using (hpun e he).2
    · simp [binaryBlock]
  have hmsg : wires (nameElems base) ++ wires (toSign f s) = m := by
    rw [← hm]
    unfold message compOctets nameElems wires
    congr 1
    rw [List.map_map]
    rfl
  refine ⟨?_, ?_, hwf2⟩
  · -- signing
    have g1 : (⟨f, wire⟩ : IObj).setSigInfo H ⟨none, s⟩ = (true, ⟨f1, none⟩) := by
      unfold IObj.setSigInfo SObj.wireEncode
      simp only [SigInfo.encode_eq hs 44]
      rw [fromRange_tlvBytes (t := 44) (by omega) (by omega) (SigInfo.elems_size hs)]
      dsimp only
      rw [hps, firstParam_absent (fun e he => (hpun e he).1), List.getElem?_eq_none (Nat.le_refl _)]
      dsimp only
      rw [firstParam_absent (fun e he => (hpun e he).2)]
      have : insertAt ps.length (binaryBlock 44 ((s.elems.map Raw.wire).flatten)) ps = toSign f s := by
        unfold insertAt
        rw [hq, List.take_length, List.drop_length]
        rfl
      rw [this, hname]
    obtain ⟨b, g2⟩ := extract_fresh H auto f1 rnd hwf1 ⟨⟨2, H (wires (toSign f s))⟩, by simp [f1], rfl⟩
      ⟨binaryBlock 44 (wires s.elems), by show _ ∈ toSign f s; rw [hq]; simp, rfl⟩
    have e1 : f1.name.dropLast = base := List.dropLast_concat
    have e2 : f1.params = toSign f s := rfl
    rw [e1, e2, htw1] at g2
    refine ⟨⟨f1, none⟩, ⟨f1', some b⟩, wires (nameElems base), wires (toSign f s), g1, g2, hmsg, ?_⟩
    have g3 : (⟨f1', some b⟩ : IObj).setSigValue H sig = (true, ⟨f2, none⟩) := by
      have k0 : f1'.params = toSign f s := rfl
      have k1 : firstParam 44 (toSign f s) = ps.length := by
        unfold firstParam
        rw [hq, List.findIdx_append, List.findIdx_eq_length_of_false (by intro e he; simpa using (hpun e he).1)]
        simp [binaryBlock]
      have k2 : (toSign f s).length = ps.length + 1 := by rw [hq]; simp
      have k3 : firstParam 46 (toSign f s) = (toSign f s).length := by
        apply firstParam_absent
        intro e he
        rw [hq] at he
        simp only [List.mem_append, List.mem_singleton] at he
        rcases he with he | rfl
        · exact (hpun e he).2
        · simp [binaryBlock]
      unfold IObj.setSigValue
      dsimp only
      rw [k0, k1, if_neg (by omega), k3, List.getElem?_eq_none (Nat.le_refl _)]
      dsimp only
      rw [← k2]
      have k4 : insertAt (toSign f s).length (binaryBlock 46 sig) (toSign f s) = toSign f s ++ [binaryBlock 46 sig] := by
        unfold insertAt
        rw [List.take_length, List.drop_length]
      rw [k4]
      have k5 : addOrReplace H f1'.name (toSign f s ++ [binaryBlock 46 sig]) = f2.name :=
        (addOrReplace_last hdb _).2 _ (hdig _)
      rw [k5]
      rfl
    exact g3
  · -- receiving
    have := encoded_v H auto hv f2 hwf2 ⟨⟨2, H (wires (toSign f s ++ [binaryBlock 46 sig]))⟩, by simp [f2, withSignature], rfl⟩
      (e := binaryBlock 44 (wires s.elems)) (sv := binaryBlock 46 sig) (es := s.elems) (info := s)
      (by
        show (toSign f s ++ [binaryBlock 46 sig]).find? _ = _
        rw [hq, List.append_assoc, List.find?_append, List.find?_eq_none.mpr (by intro e he; simpa using (hpun e he).1)]
        simp [binaryBlock])
      (readsAs_of (SigInfo.elems_wf hs)) (SigInfo.grammar_elems hs)
      (by
        show (toSign f s ++ [binaryBlock 46 sig]).find? _ = _
        rw [List.find?_append, List.find?_eq_none.mpr (by
          intro e he
          rw [hq] at he
          simp only [List.mem_append, List.mem_singleton] at he
          rcases he with he | rfl
          · simpa using (hpun e he).2
          · simp [binaryBlock])]
        simp [binaryBlock])
    have e1 : f2.name.dropLast = base := List.dropLast_concat
    have e2 : f2.params.takeWhile (fun e => e.type ≠ 46) = toSign f s := by
      show (toSign f s ++ [binaryBlock 46 sig]).takeWhile _ = _
      rw [takeWhile_insert rfl (by
        intro e he
        rw [hq] at he
        simp only [List.mem_append, List.mem_singleton] at he
        rcases he with he | rfl
        · exact (hpun e he).2
        · simp [binaryBlock]), htw1]
    rw [e1, e2, hmsg] at this
    exact this

theorem new_core (H : Bytes → Bytes) (hH : ∀ x, (H x).length = 32) (auto : Bool) (f : IFields) (wire : Option Raw) (base : List Comp)
    (s : SigInfo) (sig : Bytes) (rnd : Bytes) {ve : Parsed → Bool} {V : Option Nat → Bytes → Bytes → Bool} (hv : Verifies ve V)
    (hw : InterestWF H { f with nonce := some (f.nonce.getD rnd) }) (hb : NameWithout f base)
    (hun : ∀ e ∈ f.params, e.type ≠ 44 ∧ e.type ≠ 46) (hs : SigWF s)
    (hsize : (withSignature H f base s rnd sig).encode.length < 2 ^ 64) :
    (∃ o1 o2 r1 r2, (⟨f, wire⟩ : IObj).setSigInfo H ⟨none, s⟩ = (true, o1) ∧ o1.extractSignedRanges H auto rnd = (o2, some (r1, r2)) ∧
      r1 ++ r2 = message f base s ∧ o2.setSigValue H sig = (true, ⟨withSignature H f base s rnd sig, none⟩)) ∧
    checkInterest H auto ve (withSignature H f base s rnd sig).encode = some (V s.type (message f base s) sig) := by
  obtain ⟨h1, h2, _⟩ := new_core_wf H hH auto f wire base s sig rnd hv hw hb hun hs hsize
  exact ⟨h1, h2⟩

/-- **C142**: an Interest that is not yet signed (no SignatureInfo, no SignatureValue; its name ends with the digest if it has
parameters) is signed in the new format: signing succeeds, changes nothing but the parameters, the digest and a missing nonce, and
the receiver accepts the signed Interest exactly if the key accepts the signature made for the name and the parameters. -/
theorem C142_new (H : Bytes → Bytes) (hH : ∀ x, (H x).length = 32) (auto : Bool) (f : IFields) (wire : Option Raw) (base : List Comp)
    (s : SigInfo) (sign : Bytes → Bytes) (rnd : Bytes) (key : VKey)
    (hw : InterestWF H { f with nonce := some (f.nonce.getD rnd) }) (hb : NameWithout f base)
    (hun : ∀ e ∈ f.params, e.type ≠ 44 ∧ e.type ≠ 46) (hs : SigWF s)
    (hsize : (withSignature H f base s rnd (sign (message f base s))).encode.length < 2 ^ 64) :
    (∃ r1 r2, signInterest H auto ⟨f, wire⟩ ⟨none, s⟩ sign rnd =
      some (⟨withSignature H f base s rnd (sign (message f base s)), none⟩, r1, r2) ∧ r1 ++ r2 = message f base s) ∧
    checkInterest H auto (verify (some key)) (withSignature H f base s rnd (sign (message f base s))).encode =
      some (key.accepts (message f base s) (sign (message f base s))) := by
  obtain ⟨⟨o1, o2, r1, r2, g1, g2, g3, g4⟩, g5⟩ :=
    new_core H hH auto f wire base s (sign (message f base s)) rnd (verifies_key key) hw hb hun hs hsize
  refine ⟨⟨r1, r2, ?_, g3⟩, g5⟩
  unfold signInterest
  rw [g1]
  dsimp only
  rw [g2]
  dsimp only
  rw [g3, g4]

/-- An Interest without parameters, and one with parameters and its digest. -/
example := C142_new zeroHash (by intro x; simp [zeroHash]) true plainA none [⟨8, [65]⟩] ⟨some 3, none, []⟩ (fun m => [UInt8.ofNat m.length]) [1, 2, 3, 4]
  (.pub (fun m s => s == [UInt8.ofNat m.length])) plainA_wf (Or.inl ⟨rfl, rfl⟩) (by intro e he; simp [plainA, IFields.cleared] at he) sigWF_ecdsa
  (by decide)

/-- `/A/<digest>` with parameters `[7]`. -/
def paramsA : IFields :=
  { IFields.cleared [⟨8, [65]⟩, ⟨2, List.replicate 32 0⟩] with nonce := some [1, 2, 3, 4], params := [binaryBlock 36 [7]] }

theorem paramsA_wf : InterestWF zeroHash paramsA where
  name := by
    intro c hc
    simp only [paramsA, IFields.cleared, List.mem_cons, List.not_mem_nil, or_false] at hc
    rcases hc with rfl | rfl <;> decide
  nonempty := by decide
  digest := Or.inr ⟨by decide, by decide⟩
  hint := by intro n hn; simp [paramsA, IFields.cleared] at hn
  nonce := ⟨_, rfl, rfl⟩
  lifetime := by decide
  params := by
    intro b hb
    simp only [paramsA, List.mem_cons, List.not_mem_nil, or_false] at hb
    subst hb
    exact ⟨binaryBlock_wf (by decide) (by decide) (by decide), by decide, by decide⟩
  params0 := by
    intro b hb
    simp only [paramsA, List.head?_cons, Option.mem_def, Option.some.injEq] at hb
    subst hb; rfl
  params1 := by intro b hb; simp [paramsA] at hb
  size := by decide

example := C142_new zeroHash (by intro x; simp [zeroHash]) true paramsA none [⟨8, [65]⟩] ⟨some 3, none, []⟩ (fun m => [UInt8.ofNat m.length]) [1, 2, 3, 4]
  (.pub (fun m s => s == [UInt8.ofNat m.length])) paramsA_wf (Or.inr ⟨by decide, ⟨2, List.replicate 32 0⟩, rfl, by decide⟩)
  (by intro e he; simp only [paramsA, List.mem_cons, List.not_mem_nil, or_false] at he; subst he; decide) sigWF_ecdsa (by decide)

end Ndn.Verify
