import Verif.Verify.SignModel
import Verif.Verify.InterestProps
/-
C119: an Interest signed in the old format.
-/
namespace Ndn.Verify
open Ndn.Tlv Ndn.Block Ndn.Block.Spec Ndn.Name Ndn.Name.Spec Ndn.Packet Ndn.Packet.Spec Ndn.Interest Ndn.Interest.Spec Ndn.Pipe Ndn.Verify.Spec

theorem not_digest8 (v : Bytes) : ¬ IsDigest ⟨8, v⟩ := by simp [IsDigest]

theorem digests_generic (n : List Comp) (a b : Bytes) : digests (n ++ [⟨8, a⟩] ++ [⟨8, b⟩]) = digests n := by
  simp [digests, List.filter_append, not_digest8]

/-- Replacing the digest by the same digest. -/
theorem addOrReplace_same {H : Bytes → Bytes} {n : List Comp} {ps : List Raw}
    (h : digests n = [⟨2, H ((ps.map Raw.wire).flatten)⟩]) : addOrReplace H n ps = n := by
  unfold addOrReplace
  rcases findDigest_spec n with ⟨h1, h2⟩ | ⟨a, c, b, h1, h2, h3, h4, h5, h6⟩ | ⟨h1, h2⟩
  · rw [h] at h1; cases h1
  · rw [h5] at h
    simp only [List.cons.injEq, and_true] at h
    rw [h6, if_neg (by omega)]
    simp only [Int.toNat_natCast]
    rw [h1, List.set_append_right _ _ (by simp)]
    simp only [Nat.sub_self, List.set_cons_zero]
    rw [h]
    rfl
  · rw [h] at h1; simp at h1

/-- What signing in the old format does to an Interest. -/
theorem signOld_spec (H : Bytes → Bytes) (auto : Bool) (o : IObj) (s : SObj) (sign : Bytes → Bytes) (hd : DigestOk H o.f.name o.f.params)
    (hs : s.wire = none) (hw : SigWF s.s) :
    ∃ ib, s.s.encode 22 = some ib ∧ signOld H auto o s sign = some ⟨{ o.f with
      name := o.f.name ++ [⟨8, ib⟩] ++ [⟨8, tlvBytes 23 (sign (compOctets (o.f.name ++ [⟨8, ib⟩])))⟩] }, none⟩ := by
  have he := SigInfo.encode_eq hw 22
  refine ⟨_, he, ?_⟩
  have hb := fromRange_tlvBytes (t := 22) (by omega) (by omega) (SigInfo.elems_size hw)
  unfold signOld SObj.wireEncode
  rw [hs]
  dsimp only
  rw [he]
  dsimp only
  rw [hb]
  dsimp only
  have hwire : (binaryBlock 22 ((s.s.elems.map Raw.wire).flatten)).wire = tlvBytes 22 ((s.s.elems.map Raw.wire).flatten) := rfl
  rw [hwire]
  generalize tlvBytes 22 ((s.s.elems.map Raw.wire).flatten) = ib
  generalize tlvBytes 23 (sign (compOctets (o.f.name ++ [⟨8, ib⟩]))) = sv
  have hdig := digests_generic o.f.name ib sv
  have hne : o.f.name ++ [⟨8, ib⟩] ++ [⟨8, sv⟩] ≠ o.f.name := by
    intro h
    have := congrArg List.length h
    simp at this
  have hle : (digests o.f.name).length ≤ 1 := by
    rcases hd with ⟨-, h⟩ | ⟨-, h⟩ <;> simp [h]
  have hf : findDigest (o.f.name ++ [⟨8, ib⟩] ++ [⟨8, sv⟩]) ≠ -2 := by
    rcases findDigest_spec (o.f.name ++ [⟨8, ib⟩] ++ [⟨8, sv⟩]) with ⟨-, h⟩ | ⟨a, c, b, -, -, -, -, -, h⟩ | ⟨h, -⟩
    · omega
    · omega
    · rw [hdig] at h; omega
  simp only [IObj.step]
  rw [if_neg hf, if_pos hne]
  dsimp only
  congr 3
  rcases hd with ⟨h1, -⟩ | ⟨h1, h2⟩
  · rw [if_neg (by simp [h1])]
  · rw [if_pos h1]
    exact addOrReplace_same (by rw [hdig]; exact h2)

theorem wires_nameElems (n : List Comp) : ((nameElems n).map Raw.wire).flatten = compOctets n := by
  simp [nameElems, compOctets, Function.comp_def]

/-- Claim: an Interest signed in the old format is accepted by a key that accepts the signature made. -/
def C119_old_claim : Prop :=
  ∀ (H : Bytes → Bytes) (auto : Bool) (o o' : IObj) (s : SObj) (sign : Bytes → Bytes) (key : VKey), (∀ x, (H x).length = 32) →
    InterestWF H o.f → SigWF s.s → (∀ m, key.accepts m (sign m) = true) → signOld H auto o s sign = some o' → InterestWF H o'.f →
    checkInterest H auto (verify (some key)) o'.f.encode = some true

/-- `/A`, with parameters and a signature in the new format. -/
def resigned : IFields :=
  { IFields.cleared [⟨8, [65]⟩, ⟨2, List.replicate 32 0⟩] with
    nonce := some [1, 2, 3, 4], params := [binaryBlock 36 [], binaryBlock 44 [27, 1, 3], binaryBlock 46 [9]] }

theorem resigned_wf : InterestWF zeroHash resigned where
  name := by
    intro c hc
    simp only [resigned, IFields.cleared, List.mem_cons, List.not_mem_nil, or_false] at hc
    rcases hc with rfl | rfl <;> decide
  nonempty := by decide
  digest := Or.inr ⟨by decide, by decide⟩
  hint := by intro n hn; simp [resigned, IFields.cleared] at hn
  nonce := ⟨_, rfl, rfl⟩
  lifetime := by decide
  params := by
    intro b hb
    simp only [resigned, List.mem_cons, List.not_mem_nil, or_false] at hb
    rcases hb with rfl | rfl | rfl
    · exact ⟨binaryBlock_wf (by decide) (by decide) (by decide), by decide, by decide⟩
    · exact ⟨binaryBlock_wf (by decide) (by decide) (by decide), by decide, by decide⟩
    · exact ⟨binaryBlock_wf (by decide) (by decide) (by decide), by decide, by decide⟩
  params0 := by
    intro b hb
    simp only [resigned, List.head?_cons, Option.mem_def, Option.some.injEq] at hb
    subst hb; rfl
  params1 := by
    intro b hb
    simp only [resigned, List.tail_cons, List.mem_cons, List.not_mem_nil, or_false] at hb
    rcases hb with rfl | rfl <;> decide
  size := by decide

theorem sigWF_ecdsa : SigWF ⟨some 3, none, []⟩ where
  type := ⟨3, rfl, by decide⟩
  key := by intro k hk; cases hk
  others := by intro b hb; cases hb
  size := by
    intro t w hw
    simp only [SigInfo.encode, Option.some.injEq] at hw
    subst hw
    have h5 : ∀ n, (writeVarNumber n).length ≤ 9 := by
      intro n; rw [writeVarNumber_length]; unfold sizeOfVarNumber; (repeat' split) <;> omega
    have a := h5 t
    simp only [tlvBytes, nniTlv, List.length_append, List.length_nil, List.append_nil, List.map_nil, List.flatten_nil] at *
    have b := h5 27
    have c := h5 (writeNonNegativeInteger 3).length
    have e : (writeNonNegativeInteger 3).length = 1 := by decide
    have d := h5 ((writeVarNumber 27).length + (writeVarNumber (writeNonNegativeInteger 3).length).length + (writeNonNegativeInteger 3).length)
    omega

/-- The claim fails: an Interest that has a signature in the new format keeps it when it is signed in the old format. The receiver
then looks at the former, which is not even in its place, and refuses. -/
theorem C119_resigned_counterexample : ¬ C119_old_claim := by
  intro h
  have h1 : signOld zeroHash true ⟨resigned, none⟩ ⟨none, ⟨some 3, none, []⟩⟩ (fun _ => [7]) =
    some ⟨{ resigned with name := resigned.name ++ [⟨8, [22, 3, 27, 1, 3]⟩, ⟨8, [23, 1, 7]⟩] }, none⟩ := by decide
  have := h zeroHash true _ _ _ _ (.pub (fun _ s => s == [7])) (by intro x; simp [zeroHash]) resigned_wf sigWF_ecdsa
    (by intro m; simp [VKey.accepts]) h1 { resigned_wf with
      name := by
        intro c hc
        simp only [resigned, IFields.cleared, List.mem_cons, List.not_mem_nil, or_false, List.cons_append, List.nil_append] at hc
        rcases hc with rfl | rfl | rfl | rfl <;> decide
      nonempty := by decide
      digest := Or.inr ⟨by decide, by decide⟩
      size := by decide }
  revert this
  decide

/-- `/A` without parameters. -/
def plainA : IFields := { IFields.cleared [⟨8, [65]⟩] with nonce := some [1, 2, 3, 4] }

theorem plainA_wf : InterestWF zeroHash plainA where
  name := by
    intro c hc
    simp only [plainA, IFields.cleared, List.mem_cons, List.not_mem_nil, or_false] at hc
    subst hc; decide
  nonempty := by decide
  digest := Or.inl ⟨by decide, by decide⟩
  hint := by intro n hn; simp [plainA, IFields.cleared] at hn
  nonce := ⟨_, rfl, rfl⟩
  lifetime := by decide
  params := by intro b hb; simp [plainA, IFields.cleared] at hb
  params0 := by intro b hb; simp [plainA, IFields.cleared] at hb
  params1 := by intro b hb; simp [plainA, IFields.cleared] at hb
  size := by decide

/-- The claim also fails for a signature information that was encoded, or received, as that of an Interest in the new format: the
cached element is used, whatever its type. -/
theorem C119_cached_counterexample : ¬ C119_old_claim := by
  intro h
  have h1 : signOld zeroHash true ⟨plainA, none⟩ ⟨some (binaryBlock 44 [27, 1, 3]), ⟨some 3, none, []⟩⟩ (fun _ => [7]) =
    some ⟨{ plainA with name := [⟨8, [65]⟩, ⟨8, [44, 3, 27, 1, 3]⟩, ⟨8, [23, 1, 7]⟩] }, none⟩ := by decide
  have := h zeroHash true _ _ _ _ (.pub (fun _ s => s == [7])) (by intro x; simp [zeroHash]) plainA_wf sigWF_ecdsa
    (by intro m; simp [VKey.accepts]) h1 { plainA_wf with
      name := by
        intro c hc
        simp only [List.mem_cons, List.not_mem_nil, or_false] at hc
        rcases hc with rfl | rfl | rfl <;> decide
      nonempty := by decide
      digest := Or.inl ⟨by decide, by decide⟩
      size := by decide }
  revert this
  decide

theorem old_core (H : Bytes → Bytes) (auto : Bool) (f f' : IFields) (s : SObj) (sig : Bytes) {ve : Parsed → Bool}
    {V : Option Nat → Bytes → Bytes → Bool} (hv : Verifies ve V) (ib m : Bytes)
    (hw : InterestWF H f) (hs : SigWF s.s) (h44 : ∀ e ∈ f.params, e.type ≠ 44) (hib : s.s.encode 22 = some ib)
    (hfields : f' = { f with name := f'.name }) (hname : f'.name = f.name ++ [⟨8, ib⟩, ⟨8, tlvBytes 23 sig⟩])
    (hm : compOctets (f.name ++ [⟨8, ib⟩]) = m) (hw' : f'.encode.length < 2 ^ 64) :
    checkInterest H auto ve f'.encode = some (V s.s.type m sig) := by
  -- the element of the signature information
  obtain ⟨ib', b, e1, e2, e3, e4⟩ := C22_roundtrip s.s hs 22 (.inl rfl)
  have e1 : ib = ib' := Option.some.inj (hib.symm.trans e1)
  subst e1
  obtain ⟨b1, b2⟩ := fromBuffer_whole e2
  have hbfv : blockFromValue ib = some b := blockFromValue_iff.2 ⟨b1, b2⟩
  -- the signed Interest
  have hWF : InterestWF H f' := by
    have hdig : digests f'.name = digests f.name := by
      rw [hname]
      simpa using digests_generic f.name ib (tlvBytes 23 sig)
    have hp : f'.params = f.params := by rw [hfields]
    refine ⟨?_, ?_, ?_, ?_, ?_, ?_, ?_, ?_, ?_, hw'⟩
    · intro c hcm
      rw [hname] at hcm
      simp only [List.mem_append, List.mem_cons, List.not_mem_nil, or_false] at hcm
      rcases hcm with hcm | rfl | rfl
      · exact hw.name c hcm
      · dsimp only; omega
      · dsimp only; omega
    · rw [hname]; simp
    · have := hw.digest
      unfold DigestOk at this ⊢
      rw [hdig, hp]; exact this
    · rw [hfields]; exact hw.hint
    · rw [hfields]; exact hw.nonce
    · rw [hfields]; exact hw.lifetime
    · rw [hp]; exact hw.params
    · rw [hp]; exact hw.params0
    · rw [hp]; exact hw.params1
  obtain ⟨-, -, h3, h4⟩ := encode_block hWF auto
  have hr : ReadsAs (binaryBlock 5 ((f'.elems.map Raw.wire).flatten)).value f'.elems := readsAs_of (IFields.elems_wf hWF)
  have hsz := hWF.size
  rw [IFields.encode_eq] at hsz
  have h2 := tlvBytes_ge 5 ((f'.elems.map Raw.wire).flatten)
  have hnl : (encodeComps f'.name).length < 2 ^ 64 := by
    have := flatten_mem_le (l := f'.elems) (e := nameRaw f'.name) (by simp [IFields.elems])
    rw [nameRaw_wire] at this; omega
  have hn : ReadsAs (nameRaw f'.name).value (nameElems f'.name) := readsAs_of (nameElems_wf hWF.name hnl)
  -- the element of the signature
  have hsv : blockFromValue (tlvBytes 23 sig) = some (binaryBlock 23 sig) := by
    have hl : sig.length < 2 ^ 64 := by
      have q1 := flatten_mem_le (l := nameElems f'.name) (e := ⟨8, (⟨8, tlvBytes 23 sig⟩ : Comp).encode, tlvBytes 23 sig⟩)
        (by rw [hname]; simp [nameElems])
      rw [encodeComps_eq] at hnl
      have q2 := tlvBytes_ge 7 (((nameElems f'.name).map Raw.wire).flatten)
      have q3 := tlvBytes_ge 23 sig
      have q4 : (⟨8, tlvBytes 23 sig⟩ : Comp).encode = tlvBytes 8 (tlvBytes 23 sig) := rfl
      have q5 := tlvBytes_ge 8 (tlvBytes 23 sig)
      simp only [q4] at q1
      omega
    exact blockFromValue_iff.2 ⟨rfl, tlv_form (by omega) (by omega) hl⟩
  have hparse : parseInterest (binaryBlock 5 ((f'.elems.map Raw.wire).flatten)) f' = ⟨s.s.type, [m], sig⟩ := by
    have hno : f'.params.find? (fun e => e.type = 44) = none := by
      rw [List.find?_eq_none]
      intro e he
      rw [hfields] at he
      simpa using h44 e he
    unfold parseInterest
    rw [hno]
    dsimp only
    unfold parseInterest.old
    rw [parseElements_iff.2 hr]
    simp only [IFields.elems]
    rw [parseElements_iff.2 hn]
    dsimp only
    have l2 : f'.name.length = f.name.length + 2 := by rw [hname]; simp
    have n1 : f'.name[f'.name.length - 2]? = some ⟨8, ib⟩ := by rw [l2, hname]; simp
    have n2 : f'.name[f'.name.length - 1]? = some ⟨8, tlvBytes 23 sig⟩ := by rw [l2, hname]; simp
    unfold parseOld
    rw [if_neg (by omega), n1, n2]
    dsimp only
    rw [hbfv]
    dsimp only
    rw [e4, if_pos rfl, hsv]
    dsimp only
    have hdl : (nameElems f'.name).dropLast = nameElems (f.name ++ [⟨8, ib⟩]) := by
      rw [hname, show f.name ++ [⟨8, ib⟩, ⟨8, tlvBytes 23 sig⟩] = (f.name ++ [⟨8, ib⟩]) ++ [⟨8, tlvBytes 23 sig⟩] from by simp]
      unfold nameElems
      rw [List.map_append, List.map_singleton, List.dropLast_concat]
    rw [hdl, wires_nameElems, hm]
    rfl
  unfold checkInterest
  rw [h3]
  dsimp only
  rw [h4, Option.map_some, hparse, hv.some _ _ _ (by simp)]
  simp

/-- What does hold: if the signature information has no cached element and the Interest has no signature information of the new
format, the receiver accepts it exactly if the key accepts the signature made for the octets of the name and the signature
information. -/
theorem C119_old_partial (H : Bytes → Bytes) (auto : Bool) (o o' : IObj) (s : SObj) (sign : Bytes → Bytes) (key : VKey)
    (hw : InterestWF H o.f) (hs : SigWF s.s) (hc : s.wire = none) (h44 : ∀ e ∈ o.f.params, e.type ≠ 44)
    (h : signOld H auto o s sign = some o') (hw' : o'.f.encode.length < 2 ^ 64) :
    ∃ ib, s.s.encode 22 = some ib ∧ o'.f = { o.f with name := o'.f.name } ∧
      o'.f.name = o.f.name ++ [⟨8, ib⟩, ⟨8, tlvBytes 23 (sign (compOctets (o.f.name ++ [⟨8, ib⟩])))⟩] ∧
      checkInterest H auto (verify (some key)) o'.f.encode =
        some (key.accepts (compOctets (o.f.name ++ [⟨8, ib⟩])) (sign (compOctets (o.f.name ++ [⟨8, ib⟩])))) := by
  obtain ⟨ib, hib, hso⟩ := signOld_spec H auto o s sign hw.digest hc hs
  rw [hso] at h
  injection h with h
  have hname : o'.f.name = o.f.name ++ [⟨8, ib⟩, ⟨8, tlvBytes 23 (sign (compOctets (o.f.name ++ [⟨8, ib⟩])))⟩] := by
    rw [← h]; simp
  have hfields : o'.f = { o.f with name := o'.f.name } := by rw [← h]
  exact ⟨ib, hib, hfields, hname, old_core H auto o.f o'.f s _ (verifies_key key) ib _ hw hs h44 hib hfields hname rfl hw'⟩

/-- A key that accepts what was signed, an Interest without parameters. -/
example : ∃ o', signOld zeroHash true ⟨plainA, none⟩ ⟨none, ⟨some 3, none, []⟩⟩ (fun m => [UInt8.ofNat m.length]) = some o' ∧
    checkInterest zeroHash true (verify (some (.pub (fun m s => s == [UInt8.ofNat m.length])))) o'.f.encode = some true :=
  ⟨⟨{ plainA with name := [⟨8, [65]⟩, ⟨8, [22, 3, 27, 1, 3]⟩, ⟨8, [23, 1, 10]⟩] }, none⟩, by decide, by decide⟩

end Ndn.Verify
