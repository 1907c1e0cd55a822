import Verif.Verify.Spec
import Verif.Pipe.Props
import Verif.Interest.SignProps
/-
C116 to C118: verification of packets.
-/
namespace Ndn.Verify
open Ndn.Tlv Ndn.Block Ndn.Block.Spec Ndn.Name Ndn.Name.Spec Ndn.Packet Ndn.Packet.Spec Ndn.Interest Ndn.Interest.Spec Ndn.Pipe Ndn.Verify.Spec

theorem fromBuffer_whole {w : Bytes} {b : Raw} (h : fromBuffer w = some (b, [])) : b.wire = w ∧ TlvForm w b.type b.value := by
  rw [fromBuffer_iff, List.append_nil] at h
  obtain ⟨rfl, h⟩ := h
  exact ⟨rfl, h⟩

theorem fromBuffer_form {w v : Bytes} {t : Nat} (h : TlvForm w t v) : fromBuffer w = some (⟨t, w, v⟩, []) := by
  rw [fromBuffer_iff, List.append_nil]
  exact ⟨rfl, h⟩

theorem tlvForm_unique {w v v' : Bytes} {t t' : Nat} (h : TlvForm w t v) (h' : TlvForm w t' v') : t = t' ∧ v = v' := by
  have a := fromBuffer_form h
  rw [fromBuffer_form h'] at a
  simp only [Option.some.injEq, Prod.mk.injEq, Raw.mk.injEq, true_and, and_true] at a
  exact ⟨a.1.symm, a.2.symm⟩

/-- Parsing a Data packet gives its parts. -/
theorem parseData_eq {b : Raw} {f : DFields} (hd : dataDecode b = some f) {n sv : Raw} {rest post : List Raw}
    (hr : ReadsAs b.value (n :: rest ++ sv :: post)) (hn : n.type = 7) (hrest : ∀ e ∈ rest, e.type ≠ 23) (hsv : sv.type = 23) :
    parseData b f = ⟨f.sigInfo.type, [((n :: rest).map Raw.wire).flatten], sv.value⟩ := by
  unfold parseData
  rw [parseElements_iff.2 hr]
  obtain ⟨signed, sv', post', h1, h2, h3, h4, h5, n', rest', h6, h7, h8, h9, h10⟩ := C26_covers b f _ hd hr
  have htw : (n :: rest ++ sv :: post).takeWhile (fun e => e.type ≠ 23) = n :: rest := by
    rw [List.takeWhile_append_of_pos (by
      intro e he
      rcases List.mem_cons.1 he with rfl | he
      · simp [hn]
      · simpa using hrest e he)]
    rw [List.takeWhile_cons_of_neg (by simp [hsv]), List.append_nil]
  have hs : signedRange (n :: rest ++ sv :: post) = some (((n :: rest).map Raw.wire).flatten) := by
    unfold signedRange
    simp only [htw]
    rw [if_neg (by simp)]
  dsimp only
  rw [hs]
  dsimp only
  rw [hs] at h1
  injection h1 with h1
  subst h1
  have hsv' : sv' = sv := by
    rw [hr.1] at h4
    have e1 : ReadsAs (((n :: rest) ++ sv :: post).map Raw.wire).flatten ((n :: rest) ++ sv :: post) := ⟨rfl, hr.2⟩
    obtain ⟨es', g1, g2⟩ := (dataDecode_iff _ _).1 hd |>.2
    have := readsAs_unique g1 hr
    subst this
    obtain ⟨a, pre, pst, mi, ct, si, sv2, k1, k2, k3, k4, k5, -, -, -, -, -, -, -, -, k14⟩ := data_split g2
    rw [k14] at h2
    injection h2 with h2
    subst h2
    have := congrArg (fun l : List Raw => (l.dropWhile (fun e => e.type ≠ 23)).head?) k1
    rw [← List.cons_append] at this
    have d1 : ∀ (l : List Raw) (x : Raw) (t : List Raw), (∀ e ∈ l, e.type ≠ 23) → x.type = 23 →
        ((l ++ x :: t).dropWhile (fun e => e.type ≠ 23)).head? = some x := by
      intro l x t hl hx
      induction l with
      | nil => simp [hx]
      | cons y l ih => rw [List.cons_append, List.dropWhile_cons_of_pos (by simpa using hl y (by simp))]; exact ih (fun e he => hl e (by simp [he]))
    rw [d1 (n :: rest) sv post (by
      intro e he
      rcases List.mem_cons.1 he with rfl | he
      · omega
      · exact hrest e he) hsv, d1 (a :: pre) sv2 pst k4 k3] at this
    injection this with this
    exact this.symm
  rw [h2, hsv']
  rfl

theorem verify_one (key : VKey) (t : Option Nat) (r sig : Bytes) : verify (some key) ⟨t, [r], sig⟩ = key.accepts r sig := by
  simp [verify, verify_eq]

theorem verify_two (key : VKey) (t : Option Nat) (r1 r2 sig : Bytes) : verify (some key) ⟨t, [r1, r2], sig⟩ = key.accepts (r1 ++ r2) sig := by
  simp [verify, verify_eq]

/-- A Data packet and its parts. -/
theorem checkData_parts (v : Parsed → Bool) (w : Bytes) (x : Bool) :
    checkData v w = some x ↔ ∃ f signed sig, DataParts w f signed sig ∧ v ⟨f.sigInfo.type, [signed], sig⟩ = x := by
  constructor
  · intro h
    unfold checkData at h
    split at h
    · rename_i b hb
      obtain ⟨h1, h2⟩ := fromBuffer_whole hb
      simp only [Option.map_eq_some_iff] at h
      obtain ⟨f, hf, hx⟩ := h
      obtain ⟨ht, es, hr, g⟩ := (dataDecode_iff _ _).1 hf
      obtain ⟨n, pre, post, mi, ct, si, sv, k1, k2, k3, k4, -⟩ := data_split g
      have k1' : es = n :: pre ++ sv :: post := by rw [k1]; simp
      rw [k1'] at hr
      have k4' : ∀ e ∈ pre, e.type ≠ 23 := fun e he => k4 e (by simp [he])
      rw [parseData_eq hf hr k2 k4' k3] at hx
      refine ⟨f, _, _, ⟨b.value, n, pre, sv, post, ht ▸ h2, ?_, hr, k2, k4', k3, rfl, rfl⟩, hx⟩
      have : (⟨6, w, b.value⟩ : Raw) = b := by cases b; simp_all
      rw [this]; exact hf
    · cases h
  · rintro ⟨f, signed, sig, ⟨v', n, rest, sv, post, h1, h2, h3, h4, h5, h6, rfl, rfl⟩, hx⟩
    unfold checkData
    rw [fromBuffer_form h1]
    dsimp only
    rw [h2, Option.map_some, parseData_eq h2 h3 h4 h5 h6, hx]

/-! ### C116: Data packets -/

/-- C116: octets are a Data packet whose signature is accepted exactly if the key accepts its signature value for its signed octets. -/
theorem C116_data (key : VKey) (w : Bytes) :
    checkData (verify (some key)) w = some true ↔ ∃ f signed sig, DataParts w f signed sig ∧ key.accepts signed sig = true := by
  rw [checkData_parts]
  simp only [verify_one]

/-- C116: octets have at most one signed portion and one signature. -/
theorem C116_parts_unique (w : Bytes) (f f' : DFields) (s s' g g' : Bytes) (h : DataParts w f s g) (h' : DataParts w f' s' g') :
    f = f' ∧ s = s' ∧ g = g' := by
  obtain ⟨v, n, rest, sv, post, h1, h2, h3, h4, h5, h6, h7, h8⟩ := h
  obtain ⟨v', n', rest', sv', post', k1, k2, k3, k4, k5, k6, k7, k8⟩ := h'
  obtain ⟨-, rfl⟩ := tlvForm_unique h1 k1
  have hf : f = f' := by rw [h2] at k2; simpa using k2
  subst hf
  have e1 := parseData_eq h2 h3 h4 h5 h6
  have e2 := parseData_eq k2 k3 k4 k5 k6
  rw [e1] at e2
  simp only [Parsed.mk.injEq, List.cons.injEq, and_true, true_and] at e2
  exact ⟨rfl, by rw [h7, k7]; exact e2.1, by rw [h8, k8]; exact e2.2⟩

/-- C116: octets that are no public key verify nothing. -/
theorem C116_no_key (w : Bytes) : checkData (verify none) w ≠ some true := by
  intro h
  obtain ⟨f, s, g, -, h⟩ := (checkData_parts _ _ _).1 h
  simp [verify] at h

/-- C116: without a certificate a packet is accepted exactly if its signature type is DigestSha256 and its signature is the digest of
its signed octets. -/
theorem C116_digest (sha : Bytes → Bytes) (w : Bytes) :
    checkData (verifyCert sha none) w = some true ↔
      ∃ f signed sig, DataParts w f signed sig ∧ f.sigInfo.type = some 0 ∧ sig = sha signed := by
  rw [checkData_parts]
  simp only [verifyCert]
  constructor
  · rintro ⟨f, s, g, h1, h2⟩
    split at h2
    · rename_i ht
      exact ⟨f, s, g, h1, ht, by simpa [C113_digest] using h2⟩
    · cases h2
  · rintro ⟨f, s, g, h1, h2, h3⟩
    refine ⟨f, s, g, h1, ?_⟩
    rw [if_pos h2]
    simpa [C113_digest] using h3

/-- C116: with a certificate it is its public key that counts, whatever the signature type. -/
theorem C116_certificate (sha : Bytes → Bytes) (key : VKey) (w : Bytes) :
    checkData (verifyCert sha (some (some key))) w = some true ↔ ∃ f signed sig, DataParts w f signed sig ∧ key.accepts signed sig = true :=
  C116_data key w

/-- C116: a packet that is signed verifies, on any other host, with a key that accepts the signature made. -/
theorem C116_sign (f : DFields) (sig u : Bytes) (h : DataWF { f with sigValue := some (binaryBlock 23 sig) })
    (hu : f.encodeUnsigned = some u) (d : DObj) (key : VKey) (hk : key.accepts u sig = true) :
    ∃ w, (d.finish u sig).2 = some w ∧ checkData (verify (some key)) w = some true := by
  obtain ⟨d', w, b, es, h1, h2, h3, h4, h5⟩ := C26_signing f sig h u hu d
  refine ⟨w, by rw [h1], ?_⟩
  obtain ⟨hw1, hw2⟩ := fromBuffer_whole h3
  -- what the packet is decoded to
  have hdec : dataDecode b = some { f with sigValue := some (binaryBlock 23 sig) } := by
    unfold DObj.finish at h1
    simp only at h1
    split at h1
    · simp at h1
    · rename_i b' hb'
      simp only [Prod.mk.injEq] at h1
      obtain ⟨e1, e2⟩ := h1
      split at e2
      · rename_i hok
        have hd : d.wireDecode b' = (true, d') := by rw [← e1, ← hok]
        have hbb : b' = b := by
          obtain ⟨q1, q2⟩ := fromRange_iff.1 hb'
          injection e2 with e2
          rw [e2] at q1 q2
          obtain ⟨z1, z2⟩ := tlvForm_unique q2 hw2
          cases b; cases b'; simp_all
        subst hbb
        rw [(DObj.wireDecode_fields hd).1, h2]
      · cases e2
  obtain ⟨ht, es', hr', g⟩ := (dataDecode_iff _ _).1 hdec
  have := readsAs_unique hr' h4
  subst this
  obtain ⟨n, pre, post, mi, ct, si, sv, k1, k2, k3, k4, -, -, -, -, -, -, -, -, -, k14⟩ := data_split g
  have k1' : es' = n :: pre ++ sv :: post := by rw [k1]; simp
  have k4' : ∀ e ∈ pre, e.type ≠ 23 := fun e he => k4 e (by simp [he])
  rw [k1'] at h4
  have hp := parseData_eq hdec h4 k2 k4' k3
  have hsg : ((n :: pre).map Raw.wire).flatten = u := by
    unfold signedRange at h5
    rw [k1, ← List.cons_append] at h5
    have htw : ((n :: pre) ++ sv :: post).takeWhile (fun e => e.type ≠ 23) = n :: pre := by
      rw [List.takeWhile_append_of_pos (by intro e he; simpa using k4 e he), List.takeWhile_cons_of_neg (by simp [k3]), List.append_nil]
    simp only [htw] at h5
    rw [if_neg (by simp)] at h5
    simpa using h5
  have hsv : sv.value = sig := by
    simp only [Option.some.injEq] at k14
    rw [← k14]; rfl
  unfold checkData
  rw [h3]
  dsimp only
  rw [hdec, Option.map_some, hp, verify_one, hsg, hsv, hk]

/-- C116: authenticity. If a key accepts only what its owner signed, and the owner signed only the packets `S`, then every packet
that is accepted has the name, meta information, content and signature information of one of them. -/
theorem C116_authentic (key : VKey) (S : List DFields) (hS : ∀ f0 ∈ S, ∃ sig, DataWF { f0 with sigValue := some (binaryBlock 23 sig) })
    (hk : ∀ m s, key.accepts m s = true → ∃ f0 ∈ S, f0.encodeUnsigned = some m) (w : Bytes) (f : DFields) (v : Bytes)
    (hw : TlvForm w 6 v) (hd : dataDecode ⟨6, w, v⟩ = some f) (hc : checkData (verify (some key)) w = some true) :
    ∃ f0 ∈ S, f.name = f0.name ∧ f.minfo = f0.minfo ∧ f.content = f0.content ∧ f.sigInfo = f0.sigInfo := by
  obtain ⟨f1, signed, sig, hp, ha⟩ := (C116_data key w).1 hc
  obtain ⟨v1, n, rest, sv, post, h1, h2, h3, h4, h5, h6, h7, h8⟩ := hp
  obtain ⟨-, rfl⟩ := tlvForm_unique hw h1
  rw [hd] at h2
  injection h2 with h2
  subst h2
  obtain ⟨f0, hf0, hu⟩ := hk _ _ ha
  obtain ⟨sig0, hwf⟩ := hS f0 hf0
  obtain ⟨d', w0, b0, es0, g1, g2, g3, g4, g5⟩ := C26_signing f0 sig0 hwf signed hu (DObj.init [])
  have hdec0 : dataDecode b0 = some { f0 with sigValue := some (binaryBlock 23 sig0) } := by
    unfold DObj.finish at g1
    simp only at g1
    split at g1
    · simp at g1
    · rename_i b' hb'
      simp only [Prod.mk.injEq] at g1
      obtain ⟨e1, e2⟩ := g1
      split at e2
      · rename_i hok
        have hd' : (DObj.init []).wireDecode b' = (true, d') := by rw [← e1, ← hok]
        have hbb : b' = b0 := by
          obtain ⟨q1, q2⟩ := fromRange_iff.1 hb'
          injection e2 with e2
          rw [e2] at q1 q2
          obtain ⟨hw1, hw2⟩ := fromBuffer_whole g3
          obtain ⟨z1, z2⟩ := tlvForm_unique q2 hw2
          cases b0; cases b'; simp_all
        subst hbb
        rw [(DObj.wireDecode_fields hd').1, g2]
      · cases e2
  have hsr : signedRange (n :: rest ++ sv :: post) = some signed := by
    have htw : (n :: rest ++ sv :: post).takeWhile (fun e => e.type ≠ 23) = n :: rest := by
      rw [List.takeWhile_append_of_pos (by
        intro e he
        rcases List.mem_cons.1 he with rfl | he
        · simp [h4]
        · simpa using h5 e he)]
      rw [List.takeWhile_cons_of_neg (by simp [h6]), List.append_nil]
    unfold signedRange
    simp only [htw]
    rw [if_neg (by simp), h7]
  obtain ⟨r1, r2, r3, r4⟩ := C26_injective _ _ _ _ _ _ signed hd h3 hsr hdec0 g4 g5
  exact ⟨f0, hf0, r1, r2, r3, r4⟩

/-- A packet, a key that accepts it, and one that does not. -/
example : checkData (verify (some (.pub (fun m s => s == [UInt8.ofNat m.length])))) [6, 15, 7, 3, 8, 1, 65, 22, 3, 27, 1, 3, 32, 0, 23, 1, 12] = some true := by decide
example : checkData (verify (some (.pub (fun m s => s == [UInt8.ofNat m.length])))) [6, 15, 7, 3, 8, 1, 65, 22, 3, 27, 1, 3, 32, 0, 23, 1, 11] = some false := by decide
example : DataParts [6, 13, 7, 3, 8, 1, 65, 22, 3, 27, 1, 3, 23, 1, 10] ⟨[⟨8, [65]⟩], MetaInfo.init, none, ⟨some 3, none, []⟩, some (binaryBlock 23 [10])⟩
    [7, 3, 8, 1, 65, 22, 3, 27, 1, 3] [10] := by
  obtain ⟨f, s, g, h, h'⟩ := (C116_data (.pub (fun m s => m == [7, 3, 8, 1, 65, 22, 3, 27, 1, 3] && s == [10])) _).1
    (by decide : checkData (verify (some (.pub (fun m s => m == [7, 3, 8, 1, 65, 22, 3, 27, 1, 3] && s == [10])))) [6, 13, 7, 3, 8, 1, 65, 22, 3, 27, 1, 3, 23, 1, 10] = some true)
  simp only [VKey.accepts, Bool.and_eq_true, beq_iff_eq] at h'
  obtain ⟨rfl, rfl⟩ := h'
  obtain ⟨v, n, rest, sv, post, k1, k2, -⟩ := id h
  have : fromBuffer [6, 13, 7, 3, 8, 1, 65, 22, 3, 27, 1, 3, 23, 1, 10] =
    some (⟨6, [6, 13, 7, 3, 8, 1, 65, 22, 3, 27, 1, 3, 23, 1, 10], [7, 3, 8, 1, 65, 22, 3, 27, 1, 3, 23, 1, 10]⟩, []) := by decide
  obtain ⟨-, hv⟩ := fromBuffer_whole this
  obtain ⟨-, rfl⟩ := tlvForm_unique k1 hv
  have hd : dataDecode ⟨6, [6, 13, 7, 3, 8, 1, 65, 22, 3, 27, 1, 3, 23, 1, 10], [7, 3, 8, 1, 65, 22, 3, 27, 1, 3, 23, 1, 10]⟩ =
    some ⟨[⟨8, [65]⟩], MetaInfo.init, none, ⟨some 3, none, []⟩, some (binaryBlock 23 [10])⟩ := by decide
  rw [hd] at k2
  injection k2 with k2
  rw [k2]; exact h

end Ndn.Verify
