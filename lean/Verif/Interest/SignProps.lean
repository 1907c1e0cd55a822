import Verif.Interest.Props
/-
Properties C31, C75, C76: signed octets of an Interest, and what its parameters digest covers.
-/
namespace Ndn.Interest
open Tlv Block Block.Spec Name Name.Spec Packet Packet.Spec Spec

/-- Concatenated wire encodings. -/
def wires (es : List Raw) : Bytes := (es.map Raw.wire).flatten

/-- Elements after the first ApplicationParameters that are kept as parameters. -/
def Kept (e : Raw) : Bool := e.type ≠ 34 ∧ e.type ≠ 36

theorem split_last {α : Type} {l : List α} {x : α} (h : l.getLast? = some x) : l = l.dropLast ++ [x] := by
  obtain ⟨ys, hy⟩ := List.getLast?_eq_some_iff.mp h
  rw [hy]; simp

theorem firstParam_lt {t : Nat} {ps : List Raw} : ¬ firstParam t ps ≥ ps.length ↔ ∃ b ∈ ps, b.type = t := by
  unfold firstParam
  rw [ge_iff_le, Nat.not_le, List.findIdx_lt_length]
  simp

/-- What `paramsRange` covers: from ApplicationParameters a run of elements, whose kept ones are
exactly the parameters before the first signature value. -/
theorem paramsRange_spec (pre : List Raw) (p : Raw) (post : List Raw) (hpre : ∀ e ∈ pre, e.type ≠ 36) (hp : p.type = 36) :
    ∃ mid rest, post = mid ++ rest ∧ paramsRange (pre ++ p :: post) = wires (p :: mid) ∧
      (p :: post.filter Kept).takeWhile (fun e => e.type ≠ 46) = p :: mid.filter Kept ∧
      (∀ e ∈ mid, e.type ≠ 46) := by
  have h1 : (pre ++ p :: post).dropWhile (fun e => e.type ≠ 36) = p :: post := by
    rw [List.dropWhile_append_of_pos (by intro e he; simpa using hpre e he), List.dropWhile_cons_of_neg (by simp [hp])]
  unfold paramsRange
  rw [h1]
  simp only
  generalize hseg : post.takeWhile (fun e => e.type ≠ 46) = seg
  have h2 : post = seg ++ post.dropWhile (fun e => e.type ≠ 46) := by
    rw [← hseg]; exact (List.takeWhile_append_dropWhile).symm
  have hs46 : ∀ e ∈ seg, e.type ≠ 46 := by
    intro e he
    have := List.all_takeWhile (p := fun e : Raw => decide (e.type ≠ 46)) (l := post)
    rw [hseg] at this
    simpa using List.all_eq_true.mp this e he
  generalize hd : (seg.reverse.dropWhile (fun e => e.type = 34 || e.type = 36)).reverse = mid
  have h3 : seg = mid ++ (seg.reverse.takeWhile (fun e => e.type = 34 || e.type = 36)).reverse := by
    have := (List.takeWhile_append_dropWhile (p := fun e : Raw => decide (e.type = 34) || decide (e.type = 36)) (l := seg.reverse))
    have := congrArg List.reverse this
    rw [List.reverse_append, List.reverse_reverse, hd] at this
    exact this.symm
  generalize hx : (seg.reverse.takeWhile (fun e => e.type = 34 || e.type = 36)).reverse = drop at h3
  have hdk : drop.filter Kept = [] := by
    rw [List.filter_eq_nil_iff]
    intro e he
    rw [← hx, List.mem_reverse] at he
    have := List.all_eq_true.mp (List.all_takeWhile (p := fun e : Raw => decide (e.type = 34) || decide (e.type = 36)) (l := seg.reverse)) e he
    simp only [Bool.or_eq_true, decide_eq_true_eq] at this
    simp only [Kept, ne_eq, decide_eq_true_eq]
    omega
  refine ⟨mid, drop ++ post.dropWhile (fun e => e.type ≠ 46), ?_, by simp [wires], ?_, ?_⟩
  · rw [← List.append_assoc, ← h3]; exact h2
  · have hf : post.filter Kept = mid.filter Kept ++ (post.dropWhile (fun e => e.type ≠ 46)).filter Kept := by
      conv => lhs; rw [h2, h3]
      simp [hdk]
    rw [hf, List.takeWhile_cons_of_pos (by simp [hp])]
    congr 1
    rw [List.takeWhile_append_of_pos]
    · suffices h : ((post.dropWhile (fun e => e.type ≠ 46)).filter Kept).takeWhile (fun e => e.type ≠ 46) = [] by
        rw [h, List.append_nil]
      cases hq : post.dropWhile (fun e => e.type ≠ 46) with
      | nil => rfl
      | cons y ys =>
        have hy := List.head?_dropWhile_not (fun e : Raw => decide (e.type ≠ 46)) post
        rw [hq] at hy
        simp only [List.head?_cons] at hy
        have hy : y.type = 46 := by simpa using hy
        rw [List.filter_cons_of_pos (by simp [Kept, hy]), List.takeWhile_cons_of_neg (by simp [hy])]
    · intro e he
      have := hs46 e (by rw [h3]; exact List.mem_append_left _ (List.mem_filter.mp he).1)
      simpa using this
  · intro e he; exact hs46 e (by rw [h3]; simp [he])

/-! ### C31 -/

/-- Every accepted Interest for which signed ranges exist: the first range is the octets of all name
components but the last, which has the digest type; the second is a run of consecutive elements from
ApplicationParameters on, in which the stored parameters are exactly those before the first signature
value. -/
theorem C31_decoded (H : Bytes → Bytes) (auto : Bool) (b : Raw) (f : IFields) (r1 r2 : Bytes)
    (h : interestDecode H auto b = some f) (hr : signedRanges b f = some (r1, r2)) :
    ∃ (n : Raw) (cs : List Raw) (c : Raw) (pre : List Raw) (p : Raw) (mid post : List Raw),
      ReadsAs b.value (n :: (pre ++ p :: (mid ++ post))) ∧
      ReadsAs n.value (cs ++ [c]) ∧ c.type = 2 ∧
      f.name = (cs ++ [c]).map (fun r => (⟨r.type, r.value⟩ : Comp)) ∧ r1 = wires cs ∧
      (∀ e ∈ pre, e.type ≠ 36) ∧ p.type = 36 ∧ r2 = wires (p :: mid) ∧
      f.params.takeWhile (fun e => e.type ≠ 46) = p :: mid.filter Kept ∧ (∀ e ∈ mid, e.type ≠ 46) ∧
      (∃ s ∈ f.params, s.type = 44) := by
  obtain ⟨_, es, h1, h2, _⟩ := (interestDecode_iff _ _ _ _).mp h
  obtain ⟨n, pre, tail, g0, ⟨_, cs, g1, g1'⟩, g2, _, g4, g5, _, _, _, _, _, _, _, _, _, _, _, g17⟩ := h2
  unfold signedRanges at hr
  rw [parseElements_iff.mpr h1, g0] at hr
  simp only [parseElements_iff.mpr g1] at hr
  split at hr
  · rename_i hl
    split at hr
    · simp at hr
    · rename_i h44
      simp only [Option.some.injEq, Prod.mk.injEq] at hr
      obtain ⟨e1, e2⟩ := hr
      rw [firstParam_lt] at h44
      cases hcl : cs.getLast? with
      | none =>
        rw [g1', List.getLast?_map, hcl] at hl
        simp at hl
      | some c =>
        rw [g1', List.getLast?_map, hcl] at hl
        simp only [Option.map_some, Option.getD_some, beq_iff_eq] at hl
        have hcs := split_last hcl
        cases tail with
        | nil => simp at g17; rw [g17] at h44; simp at h44
        | cons p post =>
          have hp : p.type = 36 := g5 p (by simp)
          obtain ⟨mid, rest, k1, k2, k3, k4⟩ := paramsRange_spec pre p post g4 hp
          refine ⟨n, cs.dropLast, c, pre, p, mid, rest, ?_, ?_, hl, ?_, e1.symm, g4, hp, ?_, ?_, k4, h44⟩
          · rw [← k1, ← g0]; exact h1
          · rw [← hcs]; exact g1
          · rw [← hcs]; exact g1'
          · rw [← e2, k2]
          · rw [g17]
            have : (fun e : Raw => decide (e.type ≠ 34 ∧ e.type ≠ 36)) = Kept := by funext e; simp [Kept]
            rw [this]
            simpa using k3
  · simp at hr

theorem params_take {H : Bytes → Bytes} {f : IFields} (h : InterestWF H f) (h44 : ∃ s ∈ f.params, s.type = 44) :
    ∃ p ps, f.params = p :: ps ∧ p.type = 36 ∧ ∀ e ∈ ps, e.type ≠ 34 ∧ e.type ≠ 36 := by
  cases hp : f.params with
  | nil => rw [hp] at h44; simp at h44
  | cons p ps =>
    refine ⟨p, ps, rfl, h.params0 p (by rw [hp]; simp), ?_⟩
    intro e he; exact h.params1 e (by rw [hp]; simpa using he)

/-- Every Interest the library encodes, if its name ends with the digest component and it has a
SignatureInfo: the signed ranges are exactly the octets of the other name components, and of the
parameters up to the first signature value. -/
theorem C31_encoded (H : Bytes → Bytes) (auto : Bool) (f : IFields) (h : InterestWF H f)
    (hl : ∃ c, f.name.getLast? = some c ∧ c.type = 2) (h44 : ∃ s ∈ f.params, s.type = 44) :
    ∃ b, fromBuffer f.encode = some (b, []) ∧ interestDecode H auto b = some f ∧
      signedRanges b f = some (wires (nameElems f.name.dropLast),
        wires (f.params.takeWhile (fun e => e.type ≠ 46))) := by
  obtain ⟨_, _, h3, h4⟩ := encode_block h auto
  refine ⟨_, h3, h4, ?_⟩
  have hr : ReadsAs (binaryBlock 5 ((f.elems.map Raw.wire).flatten)).value f.elems := readsAs_of (IFields.elems_wf h)
  have hs := h.size
  rw [IFields.encode_eq] at hs
  have h2 := tlvBytes_ge 5 ((f.elems.map Raw.wire).flatten)
  have hname : (encodeComps f.name).length < 2 ^ 64 := by
    have := flatten_mem_le (l := f.elems) (e := nameRaw f.name) (by simp [IFields.elems])
    rw [nameRaw_wire] at this; omega
  have hn : ReadsAs (nameRaw f.name).value (nameElems f.name) := readsAs_of (nameElems_wf h.name hname)
  obtain ⟨c, hc1, hc2⟩ := hl
  obtain ⟨p, ps, hp1, hp2, hp3⟩ := params_take h h44
  obtain ⟨_, es, a1, ⟨n, pre, tail, a2, a3, a4, a5, a6, a7, a8, _, _, _, _, _, _, _, _, _, _, _⟩, _⟩ :=
    (interestDecode_iff _ _ _ _).mp h4
  have hhead : ∀ e ∈ f.head, e.type ≠ 36 := by
    intro e he
    unfold IFields.head at he
    simp only [List.mem_append] at he
    rcases he with he | he | he | he | he | he
    all_goals
      split at he
      · simp at he; subst he; simp [binaryBlock]
      · simp at he
  obtain ⟨mid, rest, k1, k2, k3, k4⟩ := paramsRange_spec f.head p ps hhead hp2
  unfold signedRanges
  rw [parseElements_iff.mpr hr]
  unfold IFields.elems
  simp only
  rw [parseElements_iff.mpr hn]
  simp only [hc1, Option.map_some, Option.getD_some, hc2, beq_self_eq_true, if_true]
  rw [if_neg (firstParam_lt.mpr h44)]
  have hk : ∀ l : List Raw, (∀ e ∈ l, e ∈ ps) → l.filter Kept = l := by
    intro l hl
    rw [List.filter_eq_self]
    intro e he
    have := hp3 e (hl e he)
    simp [Kept, this]
  have e1 : (nameElems f.name).dropLast = nameElems f.name.dropLast := by
    simp [nameElems, List.map_dropLast]
  have e2 : paramsRange (f.head ++ f.params) = wires (f.params.takeWhile (fun e => e.type ≠ 46)) := by
    rw [hp1, k2]
    rw [hk ps (fun e he => he), hk mid (fun e he => by rw [k1]; simp [he])] at k3
    rw [k3]
  rw [e1, e2]
  rfl

example : InterestWF zeroHash sampleInterest ∧ (∃ c, sampleInterest.name.getLast? = some c ∧ c.type = 2) ∧
    (∃ s ∈ sampleInterest.params, s.type = 44) := by
  refine ⟨sampleInterest_wf, ⟨⟨2, List.replicate 32 0⟩, rfl, rfl⟩, binaryBlock 44 [27, 1, 0], ?_, rfl⟩
  unfold sampleInterest; simp

/-- Claim: the SignatureInfo (the first one, which the library reads) is always among the signed
elements. -/
def C31_siginfo_claim : Prop :=
  ∀ (H : Bytes → Bytes) (b : Raw) (f : IFields) (r1 r2 : Bytes), (∀ x, (H x).length = 32) →
    interestDecode H true b = some f → signedRanges b f = some (r1, r2) →
    ∃ es e, ReadsAs r2 es ∧ e ∈ es ∧ f.params.find? (fun b => b.type = 44) = some e

/-- The encoding of an Interest whose signature value precedes its SignatureInfo. -/
def swapped : Raw := binaryBlock 5 ([7, 34] ++ [2, 32] ++ List.replicate 32 0 ++ [36, 0] ++ [46, 1, 9] ++ [44, 3, 27, 1, 0])

def swappedFields : IFields :=
  { IFields.cleared [⟨2, List.replicate 32 0⟩] with
    params := [binaryBlock 36 [], binaryBlock 46 [9], binaryBlock 44 [27, 1, 0]] }

/-- The claim fails: with the signature value before the SignatureInfo, the latter is not covered. -/
theorem C31_siginfo_counterexample : ¬ C31_siginfo_claim := by
  intro h
  obtain ⟨es, e, h1, h2, h3⟩ := h zeroHash swapped swappedFields [] [36, 0] (by intro x; simp [zeroHash])
    (by decide) (by decide)
  have h4 : ReadsAs [36, 0] [binaryBlock 36 []] := by
    refine ⟨by decide, ?_⟩
    intro e he
    simp only [List.mem_singleton] at he; subst he
    exact binaryBlock_wf (by decide) (by decide) (by decide)
  have := readsAs_unique h1 h4
  subst this
  simp only [List.mem_singleton] at h2
  subst h2
  revert h3; decide

/-- If the first SignatureInfo precedes the first signature value (as in every Interest whose
signature was set by the library), it is among the signed elements. -/
theorem C31_siginfo_partial (H : Bytes → Bytes) (auto : Bool) (b : Raw) (f : IFields) (r1 r2 : Bytes)
    (h : interestDecode H auto b = some f) (hr : signedRanges b f = some (r1, r2))
    (ho : ∀ a v c, f.params = a ++ v :: c → v.type = 46 → ∃ s ∈ a, s.type = 44) :
    ∃ es e, ReadsAs r2 es ∧ e ∈ es ∧ f.params.find? (fun b => b.type = 44) = some e := by
  obtain ⟨n, cs, c, pre, p, mid, post, h1, h2, h3, h4, h5, h6, h7, h8, h9, h10, h11⟩ := C31_decoded H auto b f r1 r2 h hr
  have hm := readsAs_mem h1
  refine ⟨p :: mid, ?_⟩
  have hsub : ∀ e, e ∈ f.params.takeWhile (fun e => e.type ≠ 46) → e ∈ p :: mid := by
    intro e he
    rw [h9] at he
    simp only [List.mem_cons] at he ⊢
    rcases he with he | he
    · exact Or.inl he
    · exact Or.inr (List.mem_filter.mp he).1
  have hr2 : ReadsAs r2 (p :: mid) := by
    refine ⟨h8, ?_⟩
    intro e he
    refine hm e ?_
    simp only [List.mem_cons, List.mem_append] at he ⊢
    rcases he with he | he
    · exact Or.inr (Or.inr (Or.inl he))
    · exact Or.inr (Or.inr (Or.inr (Or.inl he)))
  have hsplit : f.params = f.params.takeWhile (fun e => e.type ≠ 46) ++ f.params.dropWhile (fun e => e.type ≠ 46) :=
    (List.takeWhile_append_dropWhile).symm
  have hex : ∃ s ∈ f.params.takeWhile (fun e => e.type ≠ 46), s.type = 44 := by
    cases hd : f.params.dropWhile (fun e => e.type ≠ 46) with
    | nil => rw [hd, List.append_nil] at hsplit; rw [← hsplit]; exact h11
    | cons v c =>
      have hv := List.head?_dropWhile_not (fun e : Raw => decide (e.type ≠ 46)) f.params
      rw [hd] at hv
      simp only [List.head?_cons] at hv
      have hv : v.type = 46 := by simpa using hv
      rw [hd] at hsplit
      exact ho _ v c hsplit hv
  cases hf : (f.params.takeWhile (fun e => e.type ≠ 46)).find? (fun b => b.type = 44) with
  | none =>
    exfalso
    obtain ⟨s, hs1, hs2⟩ := hex
    have := List.find?_eq_none.mp hf s hs1
    simp [hs2] at this
  | some e =>
    refine ⟨e, hr2, hsub e (List.mem_of_find?_eq_some hf), ?_⟩
    rw [hsplit, List.find?_append, hf]; rfl

/-- A signed Interest as required: SignatureInfo before the value. -/
example : ∀ a v c, sampleInterest.params = a ++ v :: c → v.type = 46 → ∃ s ∈ a, s.type = 44 := by
  intro a v c h hv
  match a, h with
  | [], h => simp [sampleInterest] at h; rw [← h.1] at hv; simp [binaryBlock] at hv
  | [x], h => simp [sampleInterest] at h; rw [← h.2.1] at hv; simp [binaryBlock] at hv
  | x :: y :: a, h => simp [sampleInterest] at h; exact ⟨y, by simp, by rw [← h.2.1]; rfl⟩

/-- Two accepted Interests with the same two ranges agree on the name before the digest and on all
parameters before the signature value. -/
theorem C31_injective (H : Bytes → Bytes) (auto : Bool) (b b' : Raw) (f f' : IFields) (r1 r2 : Bytes)
    (h : interestDecode H auto b = some f) (hr : signedRanges b f = some (r1, r2))
    (h' : interestDecode H auto b' = some f') (hr' : signedRanges b' f' = some (r1, r2)) :
    f.name.dropLast = f'.name.dropLast ∧
      f.params.takeWhile (fun e => e.type ≠ 46) = f'.params.takeWhile (fun e => e.type ≠ 46) := by
  obtain ⟨n, cs, c, pre, p, mid, post, h1, h2, h3, h4, h5, h6, h7, h8, h9, h10, h11⟩ := C31_decoded H auto b f r1 r2 h hr
  obtain ⟨n', cs', c', pre', p', mid', post', k1, k2, k3, k4, k5, k6, k7, k8, k9, k10, k11⟩ := C31_decoded H auto b' f' r1 r2 h' hr'
  have e1 : ReadsAs r1 cs := ⟨h5, fun e he => readsAs_mem h2 e (by simp [he])⟩
  have e1' : ReadsAs r1 cs' := ⟨k5, fun e he => readsAs_mem k2 e (by simp [he])⟩
  have e2 : ReadsAs r2 (p :: mid) := by
    refine ⟨h8, fun e he => readsAs_mem h1 e ?_⟩
    simp only [List.mem_cons, List.mem_append] at he ⊢
    rcases he with he | he
    · exact Or.inr (Or.inr (Or.inl he))
    · exact Or.inr (Or.inr (Or.inr (Or.inl he)))
  have e2' : ReadsAs r2 (p' :: mid') := by
    refine ⟨k8, fun e he => readsAs_mem k1 e ?_⟩
    simp only [List.mem_cons, List.mem_append] at he ⊢
    rcases he with he | he
    · exact Or.inr (Or.inr (Or.inl he))
    · exact Or.inr (Or.inr (Or.inr (Or.inl he)))
  have := readsAs_unique e1 e1'
  subst this
  have := readsAs_unique e2 e2'
  simp only [List.cons.injEq] at this
  obtain ⟨rfl, rfl⟩ := this
  refine ⟨?_, by rw [h9, k9]⟩
  rw [h4, k4]; simp

/-- Claim: already the concatenation of the ranges, which is what is signed, determines the name. -/
def C31_concat_claim : Prop :=
  ∀ (H : Bytes → Bytes) (b b' : Raw) (f f' : IFields) (r1 r2 r1' r2' : Bytes), (∀ x, (H x).length = 32) →
    interestDecode H true b = some f → signedRanges b f = some (r1, r2) →
    interestDecode H true b' = some f' → signedRanges b' f' = some (r1', r2') →
    r1 ++ r2 = r1' ++ r2' → f.name.dropLast = f'.name.dropLast

/-- `/A/36=x/<digest>` with parameters `y`, and `/A/<digest>` with parameters `x` followed by an
ignored second ApplicationParameters `y`. -/
def concat1 : Raw := binaryBlock 5 ([7, 40, 8, 1, 65, 36, 1, 7, 2, 32] ++ List.replicate 32 0 ++ [36, 1, 8, 44, 3, 27, 1, 0, 46, 0])
def concat2 : Raw := binaryBlock 5 ([7, 37, 8, 1, 65, 2, 32] ++ List.replicate 32 0 ++ [36, 1, 7, 36, 1, 8, 44, 3, 27, 1, 0, 46, 0])
def concatF1 : IFields :=
  { IFields.cleared [⟨8, [65]⟩, ⟨36, [7]⟩, ⟨2, List.replicate 32 0⟩] with
    params := [binaryBlock 36 [8], binaryBlock 44 [27, 1, 0], binaryBlock 46 []] }
def concatF2 : IFields :=
  { IFields.cleared [⟨8, [65]⟩, ⟨2, List.replicate 32 0⟩] with
    params := [binaryBlock 36 [7], binaryBlock 44 [27, 1, 0], binaryBlock 46 []] }

/-- The claim fails: the boundary between name and parameters is not part of the signed octets. The
same signature is therefore valid for both Interests. -/
theorem C31_concat_counterexample : ¬ C31_concat_claim := by
  intro h
  have := h zeroHash concat1 concat2 concatF1 concatF2 [8, 1, 65, 36, 1, 7] [36, 1, 8, 44, 3, 27, 1, 0]
    [8, 1, 65] [36, 1, 7, 36, 1, 8, 44, 3, 27, 1, 0] (by intro x; simp [zeroHash])
    (by decide) (by decide) (by decide) (by decide) (by decide)
  revert this; decide

theorem split_at {a a' m m' : List Raw} {p p' : Raw} (ha : ∀ e ∈ a, e.type ≠ 36) (ha' : ∀ e ∈ a', e.type ≠ 36)
    (hp : p.type = 36) (hp' : p'.type = 36) (h : a ++ p :: m = a' ++ p' :: m') : a = a' ∧ p = p' ∧ m = m' := by
  induction a generalizing a' with
  | nil =>
    cases a' with
    | nil => simpa using h
    | cons x a' =>
      simp only [List.nil_append, List.cons_append, List.cons.injEq] at h
      exact absurd (h.1 ▸ hp) (ha' x (by simp))
  | cons x a ih =>
    cases a' with
    | nil =>
      simp only [List.nil_append, List.cons_append, List.cons.injEq] at h
      exact absurd (h.1.symm ▸ hp') (ha x (by simp))
    | cons y a' =>
      simp only [List.cons_append, List.cons.injEq] at h
      obtain ⟨rfl, h⟩ := h
      obtain ⟨h1, h2, h3⟩ := ih (fun e he => ha e (by simp [he])) (fun e he => ha' e (by simp [he])) h
      exact ⟨by rw [h1], h2, h3⟩

/-- For names without components of type 36 the signed octets do determine the name before the digest
and the parameters before the signature value. -/
theorem C31_concat_partial (H : Bytes → Bytes) (auto : Bool) (b b' : Raw) (f f' : IFields) (r1 r2 r1' r2' : Bytes)
    (h : interestDecode H auto b = some f) (hr : signedRanges b f = some (r1, r2))
    (h' : interestDecode H auto b' = some f') (hr' : signedRanges b' f' = some (r1', r2'))
    (hn : ∀ c ∈ f.name, c.type ≠ 36) (hn' : ∀ c ∈ f'.name, c.type ≠ 36)
    (he : r1 ++ r2 = r1' ++ r2') :
    f.name.dropLast = f'.name.dropLast ∧
      f.params.takeWhile (fun e => e.type ≠ 46) = f'.params.takeWhile (fun e => e.type ≠ 46) := by
  obtain ⟨n, cs, c, pre, p, mid, post, h1, h2, h3, h4, h5, h6, h7, h8, h9, h10, h11⟩ := C31_decoded H auto b f r1 r2 h hr
  obtain ⟨n', cs', c', pre', p', mid', post', k1, k2, k3, k4, k5, k6, k7, k8, k9, k10, k11⟩ := C31_decoded H auto b' f' r1' r2' h' hr'
  have e1 : ReadsAs (r1 ++ r2) (cs ++ p :: mid) := by
    refine ⟨by rw [h5, h8]; simp [wires], ?_⟩
    intro e he
    simp only [List.mem_append, List.mem_cons] at he
    rcases he with he | he | he
    · exact readsAs_mem h2 e (by simp [he])
    · exact readsAs_mem h1 e (by simp [he])
    · exact readsAs_mem h1 e (by simp [he])
  have e2 : ReadsAs (r1 ++ r2) (cs' ++ p' :: mid') := by
    rw [he]
    refine ⟨by rw [k5, k8]; simp [wires], ?_⟩
    intro e he
    simp only [List.mem_append, List.mem_cons] at he
    rcases he with he | he | he
    · exact readsAs_mem k2 e (by simp [he])
    · exact readsAs_mem k1 e (by simp [he])
    · exact readsAs_mem k1 e (by simp [he])
  obtain ⟨rfl, rfl, rfl⟩ := split_at
    (by intro e he; exact hn ⟨e.type, e.value⟩ (by rw [h4]; exact List.mem_map.mpr ⟨e, by simp [he], rfl⟩))
    (by intro e he; exact hn' ⟨e.type, e.value⟩ (by rw [k4]; exact List.mem_map.mpr ⟨e, by simp [he], rfl⟩))
    h7 k7 (readsAs_unique e1 e2)
  refine ⟨?_, by rw [h9, k9]⟩
  rw [h4, k4]; simp

/-! ### C75: signing -/

/-- `KeyChain::sign(Interest&, ...)`, key-chain.cpp 417-423 (format V03): with the SignatureInfo `s`,
`sign` the signature over the concatenated ranges. Also returns the ranges. `none`: exception. -/
def signInterest (H : Bytes → Bytes) (auto : Bool) (o : IObj) (s : SObj) (sign : Bytes → Bytes) (rnd : Bytes) :
    Option (IObj × Bytes × Bytes) :=
  match o.setSigInfo H s with
  | (false, _) => none
  | (true, o) =>
    match o.extractSignedRanges H auto rnd with
    | (_, none) => none
    | (o, some (r1, r2)) =>
      match o.setSigValue H (sign (r1 ++ r2)) with
      | (false, _) => none
      | (true, o) => some (o, r1, r2)

/-- Claim: what was signed is what a verifier extracts from the signed Interest. -/
def C75_claim : Prop :=
  ∀ (H : Bytes → Bytes) (o o' : IObj) (s : SObj) (sign : Bytes → Bytes) (rnd r1 r2 q1 q2 : Bytes),
    (∀ x, (H x).length = 32) → InterestWF H o.f →
    signInterest H true o s sign rnd = some (o', r1, r2) →
    (o'.extractSignedRanges H true rnd).2 = some (q1, q2) → (r1, r2) = (q1, q2)

/-- An Interest with a SignatureInfo and a further parameter after it, but no signature value. -/
def trailing : IFields :=
  { IFields.cleared [⟨2, List.replicate 32 0⟩] with
    nonce := some [1, 2, 3, 4], params := [binaryBlock 36 [], binaryBlock 44 [27, 1, 3], binaryBlock 48 [1]] }

theorem trailing_wf : InterestWF zeroHash trailing where
  name := by
    intro c hc
    simp only [trailing, IFields.cleared, List.mem_cons, List.not_mem_nil, or_false] at hc
    subst hc; decide
  nonempty := by decide
  digest := Or.inr ⟨by decide, by decide⟩
  hint := by intro n hn; simp [trailing, IFields.cleared] at hn
  nonce := ⟨_, rfl, rfl⟩
  lifetime := by decide
  params := by
    intro b hb
    simp only [trailing, List.mem_cons, List.not_mem_nil, or_false] at hb
    rcases hb with rfl | rfl | rfl
    · exact ⟨binaryBlock_wf (by decide) (by decide) (by decide), by decide, by decide⟩
    · exact ⟨binaryBlock_wf (by decide) (by decide) (by decide), by decide, by decide⟩
    · exact ⟨binaryBlock_wf (by decide) (by decide) (by decide), by decide, by decide⟩
  params0 := by
    intro b hb
    simp only [trailing, List.head?_cons, Option.mem_def, Option.some.injEq] at hb
    subst hb; rfl
  params1 := by
    intro b hb
    simp only [trailing, List.tail_cons, List.mem_cons, List.not_mem_nil, or_false] at hb
    rcases hb with rfl | rfl <;> decide
  size := by decide

/-- The claim fails: the signature value is placed right after the SignatureInfo, so a parameter that
followed it was signed but is no longer covered; the signed Interest does not verify. -/
theorem C75_trailing_counterexample : ¬ C75_claim := by
  intro h
  have h1 : signInterest zeroHash true ⟨trailing, none⟩ ⟨none, ⟨some 0, none, []⟩⟩ (fun _ => [9]) [] =
      some (⟨{ trailing with params := [binaryBlock 36 [], binaryBlock 44 [27, 1, 0], binaryBlock 46 [9], binaryBlock 48 [1]] }, none⟩,
        [], [36, 0, 44, 3, 27, 1, 0, 48, 1, 1]) := by decide
  have h2 : ((⟨{ trailing with params := [binaryBlock 36 [], binaryBlock 44 [27, 1, 0], binaryBlock 46 [9], binaryBlock 48 [1]] }, none⟩ : IObj).extractSignedRanges
      zeroHash true []).2 = some ([], [36, 0, 44, 3, 27, 1, 0]) := by decide
  have := h _ _ _ _ _ _ _ _ _ _ (by intro x; simp [zeroHash]) trailing_wf h1 h2
  revert this; decide

theorem takeWhile_insert {l : List Raw} {b : Raw} (hb : b.type = 46) (hn : ∀ e ∈ l, e.type ≠ 46) :
    (l ++ [b]).takeWhile (fun e => e.type ≠ 46) = l.takeWhile (fun e => e.type ≠ 46) := by
  rw [List.takeWhile_append_of_pos (by intro e he; simpa using hn e he),
    List.takeWhile_cons_of_neg (by simp [hb]), List.append_nil]
  have := List.takeWhile_append_of_pos (p := fun e : Raw => decide (e.type ≠ 46)) (l₂ := [])
    (by intro e he; simpa using hn e he : ∀ e ∈ l, (fun e : Raw => decide (e.type ≠ 46)) e = true)
  simpa using this.symm

theorem takeWhile_set {l : List Raw} {b : Raw} (hb : b.type = 46) :
    (l.set (firstParam 46 l) b).takeWhile (fun e => e.type ≠ 46) = l.takeWhile (fun e => e.type ≠ 46) := by
  unfold firstParam
  induction l with
  | nil => rfl
  | cons x l ih =>
    rw [List.findIdx_cons]
    by_cases hx : x.type = 46
    · simp [hx, hb]
    · simp only [hx, decide_false, cond_false, List.set_cons_succ]
      rw [List.takeWhile_cons_of_pos (by simpa using hx), List.takeWhile_cons_of_pos (by simpa using hx), ih]

theorem addOrReplace_dropLast (H : Bytes → Bytes) {n : List Comp} {qs : List Raw} {d : Bytes}
    (hd : digests n = [⟨2, d⟩]) (hl : ∃ c, n.getLast? = some c ∧ IsDigest c) :
    (addOrReplace H n qs).dropLast = n.dropLast ∧ ∃ c, (addOrReplace H n qs).getLast? = some c ∧ c.type = 2 := by
  obtain ⟨c, hc1, hc2⟩ := hl
  have hs := split_last hc1
  unfold addOrReplace
  rcases findDigest_spec n with ⟨h1, h2⟩ | ⟨a, e, b, h1, h2, h3, h4, h5, h6⟩ | ⟨h1, h2⟩
  · rw [hd] at h1; simp at h1
  · rw [h6, if_neg (by omega)]
    simp only [Int.toNat_natCast]
    have hb : b = [] := by
      cases hb : b.getLast? with
      | none => simpa using hb
      | some x =>
        exfalso
        rw [h1, List.getLast?_append, List.getLast?_cons, hb] at hc1
        simp at hc1
        subst hc1
        have : x ∈ digests b := by
          simp only [digests, List.mem_filter, decide_eq_true_eq]
          exact ⟨List.mem_of_getLast? hb, hc2⟩
        rw [h4] at this; simp at this
    subst hb
    rw [h1, List.set_append_right _ _ (by simp)]
    simp
  · rw [hd] at h1; simp at h1

/-- What does hold: from the point where the SignatureInfo has been set (and the Interest is not
cached), if it is the last parameter or a signature value is already present, setting the signature
value does not change the ranges: the verifier extracts what was signed. -/
theorem C75_sign_partial (H : Bytes → Bytes) (hH : ∀ x, (H x).length = 32) (auto : Bool) (o : IObj) (rnd rnd' v : Bytes)
    (hw : o.wire = none) (h : InterestWF H { o.f with nonce := some (o.f.nonce.getD rnd) })
    (hl : ∃ c, o.f.name.getLast? = some c ∧ IsDigest c)
    (h44 : ∃ s ∈ o.f.params, s.type = 44)
    (hpos : (∃ s ∈ o.f.params, s.type = 46) ∨
      ∃ a s, o.f.params = a ++ [s] ∧ s.type = 44 ∧ ∀ e ∈ a, e.type ≠ 44 ∧ e.type ≠ 46)
    (h2 : ∀ o2, ((o.wireEncode H auto rnd).1.setSigValue H v) = (true, o2) → InterestWF H o2.f) :
    ∃ o1 r o2, o.extractSignedRanges H auto rnd = (o1, some r) ∧ o1.setSigValue H v = (true, o2) ∧
      (o2.extractSignedRanges H auto rnd').2 = some r := by
  obtain ⟨b, hb, he⟩ := C28_wireEncode H auto o rnd hw h
  have hl' : ∃ c, ({ o.f with nonce := some (o.f.nonce.getD rnd) } : IFields).name.getLast? = some c ∧ c.type = 2 := by
    obtain ⟨c, h1, h2⟩ := hl; exact ⟨c, h1, h2.1⟩
  obtain ⟨b', c1, c2, c3⟩ := C31_encoded H auto _ h hl' h44
  have hbb : b = b' := by
    obtain ⟨d1, d2, d3, d4⟩ := encode_block h auto
    rw [d3] at c1
    simp only [Option.some.injEq, Prod.mk.injEq, and_true] at c1
    unfold IObj.wireEncode at he
    rw [hw] at he
    have e1 : o.f.encodable = true := d1
    have e2 : (o.getNonce rnd).1.f = { o.f with nonce := some (o.f.nonce.getD rnd) } := by
      unfold IObj.getNonce
      cases hn : o.f.nonce with
      | none => simp
      | some n =>
        simp only [Option.getD_some]
        rcases o with ⟨⟨a1, a2, a3, a4, a5, a6, a7, a8⟩, w⟩
        simp only at hn
        rw [hn]
    simp only [e1, Bool.not_true, Bool.false_eq_true, if_false, e2, d2] at he
    split at he
    · simp only [Prod.mk.injEq, Option.some.injEq] at he
      rw [← he.2, c1]
    · simp at he
  subst hbb
  have hx : o.extractSignedRanges H auto rnd = (⟨{ o.f with nonce := some (o.f.nonce.getD rnd) }, some b⟩, some
      (wires (nameElems o.f.name.dropLast), wires (o.f.params.takeWhile (fun e => e.type ≠ 46)))) := by
    unfold IObj.extractSignedRanges
    rw [he]
    simp only [c3]
  have hdig : digests o.f.name = [⟨2, H ((o.f.params.map Raw.wire).flatten)⟩] := by
    rcases h.digest with ⟨d, _⟩ | ⟨_, d⟩
    · obtain ⟨s, hs, _⟩ := h44
      simp only at d
      rw [d] at hs; simp at hs
    · exact d
  rw [he] at h2
  -- the object after setting the value
  have key : ∃ o2, (⟨{ o.f with nonce := some (o.f.nonce.getD rnd) }, some b⟩ : IObj).setSigValue H v = (true, o2) ∧
      (o2 = ⟨{ o.f with nonce := some (o.f.nonce.getD rnd) }, some b⟩ ∨
        (o2.wire = none ∧ (∃ c, o2.f.name.getLast? = some c ∧ c.type = 2) ∧
        o2.f.name.dropLast = o.f.name.dropLast ∧ (∃ s ∈ o2.f.params, s.type = 44) ∧
        o2.f.params.takeWhile (fun e => e.type ≠ 46) = o.f.params.takeWhile (fun e => e.type ≠ 46))) := by
    unfold IObj.setSigValue
    simp only
    rw [if_neg (firstParam_lt.mpr h44)]
    by_cases h46 : ∃ s ∈ o.f.params, s.type = 46
    · have hlt := firstParam_lt.mpr h46
      have hlt' : firstParam 46 o.f.params < o.f.params.length := by omega
      rw [List.getElem?_eq_getElem hlt']
      simp only
      split
      · exact ⟨_, rfl, Or.inl rfl⟩
      · refine ⟨_, rfl, Or.inr ⟨rfl, ?_, ?_, ?_, ?_⟩⟩
        · exact (addOrReplace_dropLast H hdig hl).2
        · exact (addOrReplace_dropLast H hdig hl).1
        · obtain ⟨s, hs1, hs2⟩ := h44
          obtain ⟨i, hi1, hi2⟩ := List.mem_iff_getElem.mp hs1
          have hne : firstParam 46 o.f.params ≠ i := by
            intro hc
            have := List.findIdx_getElem (p := fun b : Raw => decide (b.type = 46)) (xs := o.f.params) (w := hlt')
            simp only [decide_eq_true_eq] at this
            have h3 : (o.f.params[firstParam 46 o.f.params]'hlt') = s := by
              rw [← hi2]; congr 1
            unfold firstParam at h3
            rw [h3, hs2] at this
            omega
          refine ⟨s, ?_, hs2⟩
          refine List.mem_iff_getElem.mpr ⟨i, by simpa using hi1, ?_⟩
          rw [List.getElem_set_ne hne]; exact hi2
        · exact takeWhile_set rfl
    · rcases hpos with hpos | ⟨a, s, ha1, ha2, ha3⟩
      · exact absurd hpos h46
      · have hno : firstParam 46 o.f.params ≥ o.f.params.length := by
          by_cases hc : firstParam 46 o.f.params ≥ o.f.params.length
          · exact hc
          · exact absurd (firstParam_lt.mp hc) h46
        rw [List.getElem?_eq_none hno]
        simp only
        have hi : firstParam 44 o.f.params = a.length := by
          unfold firstParam
          rw [ha1, List.findIdx_append, List.findIdx_eq_length_of_false (by intro e he; simpa using (ha3 e he).1)]
          simp [ha2]
        have hins : insertAt (firstParam 44 o.f.params + 1) (binaryBlock 46 v) o.f.params = o.f.params ++ [binaryBlock 46 v] := by
          rw [hi]; unfold insertAt; rw [ha1]
          rw [List.take_of_length_le (by simp), List.drop_eq_nil_of_le (by simp)]
        rw [hins]
        refine ⟨_, rfl, Or.inr ⟨rfl, ?_, ?_, ?_, ?_⟩⟩
        · exact (addOrReplace_dropLast H hdig hl).2
        · exact (addOrReplace_dropLast H hdig hl).1
        · exact ⟨s, by simp [ha1], ha2⟩
        · refine takeWhile_insert rfl ?_
          intro e he hc
          exact h46 ⟨e, he, hc⟩
  obtain ⟨o2, k1, k2⟩ := key
  refine ⟨_, _, o2, hx, k1, ?_⟩
  rcases k2 with rfl | ⟨k2, k3, k4, k5, k6⟩
  · unfold IObj.extractSignedRanges IObj.wireEncode
    simp only [c3]
  · have hwf := h2 o2 k1
    obtain ⟨nn, hnn, hnl⟩ := hwf.nonce
    have hsame : ({ o2.f with nonce := some (o2.f.nonce.getD rnd') } : IFields) = o2.f := by
      rcases o2 with ⟨⟨a1, a2, a3, a4, a5, a6, a7, a8⟩, w⟩
      simp only at hnn ⊢
      rw [hnn]; rfl
    obtain ⟨b2, m1, m2⟩ := C28_wireEncode H auto o2 rnd' k2 (by rw [hsame]; exact hwf)
    obtain ⟨b3, n1, n2, n3⟩ := C31_encoded H auto o2.f hwf k3 k5
    have hb23 : b2 = b3 := by
      obtain ⟨d1, d2, d3, d4⟩ := encode_block hwf auto
      rw [d3] at n1
      simp only [Option.some.injEq, Prod.mk.injEq, and_true] at n1
      unfold IObj.wireEncode at m2
      rw [k2] at m2
      have e2 : (o2.getNonce rnd').1.f = o2.f := by
        unfold IObj.getNonce; rw [hnn]
      simp only [d1, Bool.not_true, Bool.false_eq_true, if_false, e2, d2] at m2
      split at m2
      · simp only [Prod.mk.injEq, Option.some.injEq] at m2
        rw [← m2.2, n1]
      · simp at m2
    subst hb23
    unfold IObj.extractSignedRanges
    rw [m2, hsame]
    simp only [n3, k4, k6]

/-- The usual case meets the hypotheses: parameters and SignatureInfo, no value yet. -/
example : ∃ o : IObj, o.wire = none ∧
    InterestWF zeroHash { o.f with nonce := some (o.f.nonce.getD [1, 2, 3, 4]) } ∧
    (∃ c, o.f.name.getLast? = some c ∧ IsDigest c) ∧ (∃ s ∈ o.f.params, s.type = 44) ∧
    (∃ s ∈ o.f.params, s.type = 46) :=
  ⟨⟨sampleInterest, none⟩, rfl, sampleInterest_wf, ⟨⟨2, List.replicate 32 0⟩, rfl, by decide⟩,
    ⟨binaryBlock 44 [27, 1, 0], by unfold sampleInterest; simp, rfl⟩,
    ⟨binaryBlock 46 [5, 5], by unfold sampleInterest; simp, rfl⟩⟩

/-! ### C76: what the digest covers -/

/-- Claim: the digest in the name of an accepted Interest is that of all octets from
ApplicationParameters to the end of the Interest. -/
def C76_claim : Prop :=
  ∀ (H : Bytes → Bytes) (b : Raw) (f : IFields) (n : Raw) (pre : List Raw) (p : Raw) (post : List Raw),
    (∀ x, (H x).length = 32) → interestDecode H true b = some f →
    ReadsAs b.value (n :: (pre ++ p :: post)) → (∀ e ∈ pre, e.type ≠ 36) → p.type = 36 →
    digests f.name = [⟨2, H (wires (p :: post))⟩]

/-- A "hash" that keeps the first 32 octets, padded. -/
def headHash (x : Bytes) : Bytes := (x ++ List.replicate 32 0).take 32

/-- The claim fails: a second ApplicationParameters element (here with value 8) is ignored and not
covered by the digest. -/
theorem C76_repeated_counterexample : ¬ C76_claim := by
  intro h
  have := h headHash
    (binaryBlock 5 ([7, 34, 2, 32, 36, 1, 7] ++ List.replicate 29 0 ++ [36, 1, 7, 36, 1, 8]))
    { IFields.cleared [⟨2, [36, 1, 7] ++ List.replicate 29 0⟩] with params := [binaryBlock 36 [7]] }
    (binaryBlock 7 ([2, 32, 36, 1, 7] ++ List.replicate 29 0)) [] (binaryBlock 36 [7]) [binaryBlock 36 [8]]
    (by intro x; simp [headHash]) (by decide) ?_ (by simp) rfl
  · revert this; decide
  · refine ⟨by decide, ?_⟩
    intro e he
    simp only [List.nil_append, List.mem_cons, List.not_mem_nil, or_false] at he
    rcases he with rfl | rfl | rfl <;> exact binaryBlock_wf (by decide) (by decide) (by decide)

/-- It does cover all of them if no HopLimit or ApplicationParameters follows. -/
theorem C76_covers_partial (H : Bytes → Bytes) (b : Raw) (f : IFields) (n : Raw) (pre : List Raw) (p : Raw) (post : List Raw)
    (h : interestDecode H true b = some f) (hr : ReadsAs b.value (n :: (pre ++ p :: post)))
    (hpre : ∀ e ∈ pre, e.type ≠ 36) (hp : p.type = 36) (hk : ∀ e ∈ post, e.type ≠ 34 ∧ e.type ≠ 36) :
    f.params = p :: post ∧ digests f.name = [⟨2, H (wires (p :: post))⟩] := by
  obtain ⟨_, es, h1, h2, h3⟩ := (interestDecode_iff _ _ _ _).mp h
  have := readsAs_unique h1 hr
  subst this
  obtain ⟨n', pre', tail, g0, _, _, _, g4, g5, _, _, _, _, _, _, _, _, _, _, _, g17⟩ := h2
  simp only [List.cons.injEq] at g0
  obtain ⟨_, g0⟩ := g0
  have ht : tail = p :: post := by
    cases tail with
    | nil =>
      exfalso
      simp only [List.append_nil] at g0
      exact g4 p (by rw [← g0]; simp) hp
    | cons q tail =>
      obtain ⟨_, rfl, rfl⟩ := split_at hpre g4 hp (g5 q (by simp)) g0
      rfl
  have hps : f.params = p :: post := by
    rw [g17, ht]
    simp only [List.take_succ_cons, List.take_zero, List.drop_succ_cons, List.drop_zero, List.cons_append, List.nil_append]
    congr 1
    rw [List.filter_eq_self]
    intro e he; simpa using hk e he
  refine ⟨hps, ?_⟩
  rcases h3 rfl with ⟨d, _⟩ | ⟨_, d⟩
  · rw [hps] at d; simp at d
  · rw [d, hps]; rfl

/-- An Interest as in the statement. -/
example : ∃ b f, interestDecode zeroHash true b = some f ∧ f.params.length = 3 :=
  let ⟨_, b, _, _, h⟩ := C28_roundtrip zeroHash true _ sampleInterest_wf
  ⟨b, _, h, rfl⟩

end Ndn.Interest
