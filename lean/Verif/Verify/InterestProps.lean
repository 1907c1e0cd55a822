import Verif.Verify.Props
/-
C117: verification of Interests.
-/
namespace Ndn.Verify
open Ndn.Tlv Ndn.Block Ndn.Block.Spec Ndn.Name Ndn.Name.Spec Ndn.Packet Ndn.Packet.Spec Ndn.Interest Ndn.Interest.Spec Ndn.Pipe Ndn.Verify.Spec

theorem paramsRange_exact {pre mid skip post : List Raw} {p sv : Raw} (h1 : ∀ e ∈ pre, e.type ≠ 36) (h2 : p.type = 36)
    (h3 : ∀ e ∈ mid, e.type ≠ 46) (h4 : ∀ e ∈ mid.getLast?, e.type ≠ 34 ∧ e.type ≠ 36)
    (h5 : ∀ e ∈ skip, e.type = 34 ∨ e.type = 36) (h6 : sv.type = 46) :
    paramsRange (pre ++ p :: (mid ++ (skip ++ sv :: post))) = wires (p :: mid) := by
  have e1 : (pre ++ p :: (mid ++ (skip ++ sv :: post))).dropWhile (fun e => e.type ≠ 36) = p :: (mid ++ (skip ++ sv :: post)) := by
    rw [List.dropWhile_append_of_pos (by intro e he; simpa using h1 e he), List.dropWhile_cons_of_neg (by simp [h2])]
  have e2 : (mid ++ (skip ++ sv :: post)).takeWhile (fun e => e.type ≠ 46) = mid ++ skip := by
    rw [← List.append_assoc, List.takeWhile_append_of_pos (by
      intro e he
      rcases List.mem_append.1 he with he | he
      · simpa using h3 e he
      · have := h5 e he
        simp only [ne_eq, decide_eq_true_eq]
        omega), List.takeWhile_cons_of_neg (by simp [h6]), List.append_nil]
  have e3 : ((mid ++ skip).reverse.dropWhile (fun e => e.type = 34 || e.type = 36)).reverse = mid := by
    rw [List.reverse_append, List.dropWhile_append_of_pos (by
      intro e he
      have := h5 e (List.mem_reverse.1 he)
      simpa using this)]
    rcases List.eq_nil_or_concat mid with rfl | ⟨m, x, rfl⟩
    · rfl
    · have := h4 x (by simp)
      simp only [List.concat_eq_append, List.reverse_append, List.reverse_cons, List.reverse_nil, List.nil_append, List.singleton_append]
      rw [List.dropWhile_cons_of_neg (by simp only [Bool.or_eq_true, decide_eq_true_eq]; omega)]
      simp
  unfold paramsRange
  rw [e1]
  dsimp only
  rw [e2, e3]
  simp [wires]

/-- Elements before the first signature value. -/
theorem split_skip (l : List Raw) (h : ∃ e ∈ l, e.type = 46) :
    ∃ mid skip sv post, l = mid ++ (skip ++ sv :: post) ∧ (∀ e ∈ mid, e.type ≠ 46) ∧ (∀ e ∈ mid.getLast?, e.type ≠ 34 ∧ e.type ≠ 36) ∧
      (∀ e ∈ skip, e.type = 34 ∨ e.type = 36) ∧ sv.type = 46 := by
  induction l with
  | nil => obtain ⟨e, he, -⟩ := h; cases he
  | cons x l ih =>
    by_cases hx : x.type = 46
    · exact ⟨[], [], x, l, rfl, by simp, by simp, by simp, hx⟩
    · have h' : ∃ e ∈ l, e.type = 46 := by
        obtain ⟨e, he, ht⟩ := h
        rcases List.mem_cons.1 he with rfl | he
        · exact absurd ht hx
        · exact ⟨e, he, ht⟩
      obtain ⟨mid, skip, sv, post, g1, g2, g3, g4, g5⟩ := ih h'
      cases mid with
      | nil =>
        by_cases hs : x.type = 34 ∨ x.type = 36
        · refine ⟨[], x :: skip, sv, post, by rw [g1]; rfl, by simp, by simp, ?_, g5⟩
          intro e he
          rcases List.mem_cons.1 he with rfl | he
          · exact hs
          · exact g4 e he
        · refine ⟨[x], skip, sv, post, by rw [g1]; rfl, by simpa using hx, ?_, g4, g5⟩
          intro e he
          simp only [List.getLast?_singleton, Option.mem_def, Option.some.injEq] at he
          subst he; omega
      | cons y mid =>
        refine ⟨x :: y :: mid, skip, sv, post, by rw [g1]; rfl, ?_, ?_, g4, g5⟩
        · intro e he
          rcases List.mem_cons.1 he with rfl | he
          · exact hx
          · exact g2 e he
        · intro e he
          exact g3 e (by rw [List.getLast?_cons_cons] at he; exact he)

theorem find_46 {mid skip post : List Raw} {sv : Raw} (h3 : ∀ e ∈ mid, e.type ≠ 46)
    (h5 : ∀ e ∈ skip, e.type = 34 ∨ e.type = 36) (h6 : sv.type = 46) :
    ((mid ++ (skip ++ sv :: post)).filter (fun e => e.type ≠ 34 ∧ e.type ≠ 36)).find? (fun e => e.type = 46) = some sv := by
  rw [List.filter_append, List.filter_append, List.find?_append, List.find?_append]
  have a : (mid.filter (fun e => e.type ≠ 34 ∧ e.type ≠ 36)).find? (fun e => e.type = 46) = none := by
    rw [List.find?_eq_none]
    intro e he
    simpa using h3 e (List.mem_filter.1 he).1
  have b : (skip.filter (fun e => e.type ≠ 34 ∧ e.type ≠ 36)).find? (fun e => e.type = 46) = none := by
    rw [List.find?_eq_none]
    intro e he
    have := h5 e (List.mem_filter.1 he).1
    simp only [decide_eq_true_eq]
    omega
  rw [a, b, List.filter_cons_of_pos (by simp [h6])]
  simp [h6]

/-- What is verified, as a function of the signature type, the octets signed and the signature. -/
structure Verifies (v : Parsed → Bool) (V : Option Nat → Bytes → Bytes → Bool) : Prop where
  none : v Parsed.none = false
  some : ∀ t bufs sig, bufs ≠ [] → v ⟨t, bufs, sig⟩ = V t bufs.flatten sig

theorem verifies_key (key : VKey) : Verifies (verify (some key)) (fun _ m s => key.accepts m s) where
  none := rfl
  some t bufs sig h := by
    cases bufs with
    | nil => exact absurd rfl h
    | cons b bs => simp [verify, verify_eq]

theorem verifies_digest (sha : Bytes → Bytes) : Verifies (verifyCert sha none) (fun t m s => decide (t = some 0) && decide (s = sha m)) where
  none := rfl
  some t bufs sig h := by
    by_cases ht : t = Option.some 0
    · simp only [verifyCert, ht, if_true, decide_true, Bool.true_and]
      rw [Bool.eq_iff_iff]
      simp [C113_digest, h]
    · simp [verifyCert, ht]

theorem old_iff {H : Bytes → Bytes} {auto : Bool} {w v : Bytes} {f : IFields} (hw : TlvForm w 5 v)
    (hd : interestDecode H auto ⟨5, w, v⟩ = some f) {ve : Parsed → Bool} {V : Option Nat → Bytes → Bytes → Bool} (hv : Verifies ve V) :
    ve (parseInterest.old ⟨5, w, v⟩ f) = true ↔ ∃ info signed sig, OldParts H auto w f info signed sig ∧ V info.type signed sig = true := by
  obtain ⟨-, es, hr, g, -⟩ := (interestDecode_iff _ _ _ _).1 hd
  obtain ⟨n, pre, tail, g0, ⟨-, cs, g1, g2⟩, -⟩ := g
  subst g0
  have hp : parseInterest.old ⟨5, w, v⟩ f = parseOld cs f.name := by
    unfold parseInterest.old
    rw [parseElements_iff.2 hr]
    dsimp only
    rw [parseElements_iff.2 g1]
  rw [hp]
  have hlen : f.name.length = cs.length := by rw [g2]; simp
  constructor
  · intro h
    unfold parseOld at h
    split at h
    · rw [hv.none] at h; cases h
    · rename_i hl
      rw [hlen] at hl
      obtain ⟨cs', i, c, rfl⟩ : ∃ cs' i c, cs = cs' ++ [i, c] := by
        rcases List.eq_nil_or_concat cs with rfl | ⟨l, c, rfl⟩
        · simp at hl
        rcases List.eq_nil_or_concat l with rfl | ⟨l, i, rfl⟩
        · simp at hl
        exact ⟨l, i, c, by simp⟩
      have n1 : f.name[f.name.length - 2]? = some ⟨i.type, i.value⟩ := by
        rw [hlen, g2]; simp
      have n2 : f.name[f.name.length - 1]? = some ⟨c.type, c.value⟩ := by
        rw [hlen, g2]; simp
      rw [n1, n2] at h
      dsimp only at h
      split at h
      · rw [hv.none] at h; cases h
      rename_i ib hib
      split at h
      rotate_left
      · rw [hv.none] at h; cases h
      rename_i hinfo
      split at h
      · rw [hv.none] at h; cases h
      rename_i sv hsv
      rw [hv.some _ _ _ (by simp)] at h
      obtain ⟨i1, i2⟩ := blockFromValue_iff.1 hib
      obtain ⟨s1, s2⟩ := blockFromValue_iff.1 hsv
      obtain ⟨t1, es, t2, t3⟩ := (sigDecode_iff ib 22 (SigInfo.wireDecode ib 22).2).1 (by rw [← hinfo])
      refine ⟨_, _, _, ⟨v, n, pre ++ tail, cs', i, c, ib.value, sv.type, hw, hd, hr, g1, ?_, ⟨es, t2, t3⟩, s2, rfl⟩, ?_⟩
      · rw [← t1]; exact i2
      · have hdl : (cs' ++ [i, c]).dropLast = cs' ++ [i] := by
          rw [show cs' ++ [i, c] = (cs' ++ [i]) ++ [c] from by simp, List.dropLast_concat]
        rw [hdl] at h
        simpa using h
  · rintro ⟨info, signed, sig, ⟨v', n', rest, cs', i, c, ib, t, k1, k2, k3, k4, k5, ⟨es, k6, k7⟩, k8, k9⟩, hV⟩
    obtain ⟨-, rfl⟩ := tlvForm_unique hw k1
    have := readsAs_unique hr k3
    simp only [List.cons.injEq] at this
    obtain ⟨rfl, -⟩ := this
    have := readsAs_unique g1 k4
    subst this
    have n1 : f.name[f.name.length - 2]? = some ⟨i.type, i.value⟩ := by
      rw [hlen, g2]; simp
    have n2 : f.name[f.name.length - 1]? = some ⟨c.type, c.value⟩ := by
      rw [hlen, g2]; simp
    have hib : blockFromValue i.value = some ⟨22, i.value, ib⟩ := blockFromValue_iff.2 ⟨rfl, k5⟩
    have hsv : blockFromValue c.value = some ⟨t, c.value, sig⟩ := blockFromValue_iff.2 ⟨rfl, k8⟩
    have hin : SigInfo.wireDecode ⟨22, i.value, ib⟩ 22 = (true, info) := (sigDecode_iff _ _ _).2 ⟨rfl, es, k6, k7⟩
    unfold parseOld
    rw [if_neg (by rw [hlen]; simp), n1, n2]
    dsimp only
    rw [hib]
    dsimp only
    rw [hin, if_pos rfl, hsv]
    dsimp only
    rw [hv.some _ _ _ (by simp)]
    have hdl : (cs' ++ [i, c]).dropLast = cs' ++ [i] := by
      rw [show cs' ++ [i, c] = (cs' ++ [i]) ++ [c] from by simp, List.dropLast_concat]
    rw [hdl, List.flatten_singleton, ← k9]
    exact hV

theorem ranges_iff {H : Bytes → Bytes} {auto : Bool} {w v : Bytes} {f : IFields} (hw : TlvForm w 5 v)
    (hd : interestDecode H auto ⟨5, w, v⟩ = some f) {e sv : Raw} {info : SigInfo} {es : List Raw}
    (h44 : f.params.find? (fun e => e.type = 44) = some e) (hes : ReadsAs e.value es) (hg : SigGrammar es info)
    (h46 : f.params.find? (fun e => e.type = 46) = some sv) (signed sig : Bytes) :
    (∃ r1 r2, signedRanges ⟨5, w, v⟩ f = some (r1, r2) ∧ signed = r1 ++ r2 ∧ sig = sv.value) ↔ InterestParts H auto w f info signed sig := by
  obtain ⟨-, es', hr, g, -⟩ := (interestDecode_iff _ _ _ _).1 hd
  obtain ⟨n, pre, tail, g0, ⟨-, cs, g1, g2⟩, -, -, g4, g5, -, -, -, -, -, -, -, -, -, -, -, g17⟩ := g
  subst g0
  have hf44 : ¬ firstParam 44 f.params ≥ f.params.length := by
    rw [firstParam_lt]
    exact ⟨e, List.mem_of_find?_eq_some h44, by simpa using List.find?_some h44⟩
  have hsr : signedRanges ⟨5, w, v⟩ f = if (f.name.getLast?.map (fun c => c.type == 2)).getD false then
      some ((cs.dropLast.map Raw.wire).flatten, paramsRange (pre ++ tail)) else none := by
    unfold signedRanges
    rw [parseElements_iff.2 hr]
    dsimp only
    rw [parseElements_iff.2 g1]
    dsimp only
    rw [if_neg hf44]
  cases tail with
  | nil => rw [g17] at h46; simp at h46
  | cons p post =>
    have hp : p.type = 36 := g5 p (by simp)
    constructor
    · rintro ⟨r1, r2, h, rfl, rfl⟩
      rw [hsr] at h
      split at h
      rotate_left
      · cases h
      rename_i hl
      simp only [Option.some.injEq, Prod.mk.injEq] at h
      obtain ⟨rfl, rfl⟩ := h
      cases hcl : cs.getLast? with
      | none => rw [g2, List.getLast?_map, hcl] at hl; simp at hl
      | some c =>
        rw [g2, List.getLast?_map, hcl] at hl
        simp only [Option.map_some, Option.getD_some, beq_iff_eq] at hl
        have hcs := split_last hcl
        have h46' : ∃ e ∈ post, e.type = 46 := by
          have m := List.mem_of_find?_eq_some h46
          have t := List.find?_some h46
          simp only [decide_eq_true_eq] at t
          rw [g17] at m
          simp only [List.take_succ_cons, List.take_zero, List.drop_succ_cons, List.drop_zero, List.singleton_append, List.mem_cons, List.mem_filter] at m
          rcases m with rfl | m
          · omega
          · exact ⟨sv, m.1, t⟩
        obtain ⟨mid, skip, sv', post', q1, q2, q3, q4, q5⟩ := split_skip post h46'
        have hsv : sv' = sv := by
          rw [g17] at h46
          simp only [List.take_succ_cons, List.take_zero, List.drop_succ_cons, List.drop_zero, List.singleton_append] at h46
          rw [List.find?_cons_of_neg (by simp [hp]), q1, find_46 q2 q4 q5] at h46
          injection h46
        subst hsv
        refine ⟨v, n, cs.dropLast, c, pre, p, mid, skip, sv', post', hw, hd, ?_, ?_, hl, g4, hp, q2, q3, q4, q5, ⟨e, es, h44, hes, hg⟩, ?_, rfl⟩
        · rw [← q1]; exact hr
        · rw [← hcs]; exact g1
        · rw [q1, paramsRange_exact g4 hp q2 q3 q4 q5]
          simp [wires]
    · rintro ⟨v', n', cs', c, pre', p', mid, skip, sv', post', k1, k2, k3, k4, k5, k6, k7, k8, k9, k10, k11, k12, rfl, rfl⟩
      obtain ⟨-, rfl⟩ := tlvForm_unique hw k1
      have := readsAs_unique hr k3
      simp only [List.cons.injEq] at this
      obtain ⟨rfl, hpp⟩ := this
      have := readsAs_unique g1 k4
      subst this
      obtain ⟨rfl, rfl, rfl⟩ := split_at g4 k6 hp k7 hpp
      have hsv : sv' = sv := by
        rw [g17] at h46
        simp only [List.take_succ_cons, List.take_zero, List.drop_succ_cons, List.drop_zero, List.singleton_append] at h46
        rw [List.find?_cons_of_neg (by simp [hp]), find_46 k8 k10 k11] at h46
        injection h46
      subst hsv
      refine ⟨(cs'.map Raw.wire).flatten, wires (p :: mid), ?_, by simp [wires], rfl⟩
      rw [hsr, if_pos (by rw [g2]; simp [k5]), List.dropLast_concat, paramsRange_exact g4 hp k8 k9 k10 k11]

/-- An Interest that is verified, and its parts. -/
theorem checkInterest_parts (H : Bytes → Bytes) (auto : Bool) {ve : Parsed → Bool} {V : Option Nat → Bytes → Bytes → Bool}
    (hv : Verifies ve V) (w : Bytes) :
    checkInterest H auto ve w = some true ↔
      (∃ f info signed sig, InterestParts H auto w f info signed sig ∧ V info.type signed sig = true) ∨
      (∃ f info signed sig, OldParts H auto w f info signed sig ∧
        ((∀ e ∈ f.params, e.type ≠ 44) ∨ (∀ e ∈ f.params, e.type ≠ 46) ∧
          ∃ e es info', f.params.find? (fun e => e.type = 44) = some e ∧ ReadsAs e.value es ∧ SigGrammar es info') ∧
        V info.type signed sig = true) := by
  have key : ∀ v f, TlvForm w 5 v → interestDecode H auto ⟨5, w, v⟩ = some f →
      (ve (parseInterest ⟨5, w, v⟩ f) = true ↔
        (∃ info signed sig, InterestParts H auto w f info signed sig ∧ V info.type signed sig = true) ∨
        (∃ info signed sig, OldParts H auto w f info signed sig ∧
          ((∀ e ∈ f.params, e.type ≠ 44) ∨ (∀ e ∈ f.params, e.type ≠ 46) ∧
            ∃ e es info', f.params.find? (fun e => e.type = 44) = some e ∧ ReadsAs e.value es ∧ SigGrammar es info') ∧
          V info.type signed sig = true)) := by
    intro v f hw hd
    -- an Interest with all parts has a signature value among its parameters
    have hhas : ∀ info signed sig, InterestParts H auto w f info signed sig →
        (∃ sv, f.params.find? (fun e => e.type = 46) = some sv) := by
      rintro info signed sig ⟨v', n', cs', c, pre', p', mid, skip, sv', post', k1, k2, k3, k4, k5, k6, k7, k8, k9, k10, k11, -⟩
      obtain ⟨-, rfl⟩ := tlvForm_unique hw k1
      obtain ⟨-, es', hr, g, -⟩ := (interestDecode_iff _ _ _ _).1 hd
      obtain ⟨n, pre, tail, g0, -, -, -, g4, g5, -, -, -, -, -, -, -, -, -, -, -, g17⟩ := g
      subst g0
      have := readsAs_unique hr k3
      simp only [List.cons.injEq] at this
      obtain ⟨rfl, hpp⟩ := this
      cases tail with
      | nil =>
        rw [List.append_nil] at hpp
        exact absurd k7 (g4 p' (by rw [hpp]; simp))
      | cons p post =>
        have hp : p.type = 36 := g5 p (by simp)
        obtain ⟨rfl, rfl, rfl⟩ := split_at g4 k6 hp k7 hpp
        refine ⟨sv', ?_⟩
        rw [g17]
        simp only [List.take_succ_cons, List.take_zero, List.drop_succ_cons, List.drop_zero, List.singleton_append]
        rw [List.find?_cons_of_neg (by simp [hp]), find_46 k8 k10 k11]
    unfold parseInterest
    cases h44 : f.params.find? (fun e => e.type = 44) with
    | none =>
      dsimp only
      have hno : ∀ e ∈ f.params, e.type ≠ 44 := by simpa using h44
      rw [old_iff hw hd hv]
      constructor
      · rintro ⟨info, signed, sig, h1, h2⟩
        exact .inr ⟨info, signed, sig, h1, .inl hno, h2⟩
      · rintro (⟨info, signed, sig, h1, h2⟩ | ⟨info, signed, sig, h1, -, h2⟩)
        · obtain ⟨_, _, _, _, _, _, _, _, _, _, _, _, _, _, _, _, _, _, _, _, _, ⟨e, es, k, -⟩, -⟩ := h1
          rw [h44] at k; cases k
        · exact ⟨info, signed, sig, h1, h2⟩
    | some e =>
      dsimp only
      by_cases hi : (SigInfo.wireDecode e 44).1 = true
      · rw [if_pos hi]
        obtain ⟨-, es, hes, hg⟩ := (sigDecode_iff e 44 (SigInfo.wireDecode e 44).2).1 (by rw [← hi])
        cases h46 : f.params.find? (fun e => e.type = 46) with
        | none =>
          dsimp only
          have hno : ∀ e ∈ f.params, e.type ≠ 46 := by simpa using h46
          rw [old_iff hw hd hv]
          constructor
          · rintro ⟨info, signed, sig, h1, h2⟩
            exact .inr ⟨info, signed, sig, h1, .inr ⟨hno, e, es, _, rfl, hes, hg⟩, h2⟩
          · rintro (⟨info, signed, sig, h1, h2⟩ | ⟨info, signed, sig, h1, -, h2⟩)
            · obtain ⟨sv, k⟩ := hhas _ _ _ h1
              rw [h46] at k; cases k
            · exact ⟨info, signed, sig, h1, h2⟩
        | some sv =>
          dsimp only
          have hri := ranges_iff hw hd h44 hes hg h46
          constructor
          · intro h
            cases hs : signedRanges ⟨5, w, v⟩ f with
            | none => rw [hs] at h; dsimp only at h; rw [hv.none] at h; cases h
            | some r =>
              obtain ⟨r1, r2⟩ := r
              rw [hs] at h
              dsimp only at h
              rw [hv.some _ _ _ (by simp)] at h
              exact .inl ⟨_, r1 ++ r2, sv.value, (hri _ _).1 ⟨r1, r2, hs, rfl, rfl⟩, by simpa using h⟩
          · rintro (⟨info, signed, sig, h1, h2⟩ | ⟨info, signed, sig, -, h1 | ⟨h1, -⟩, -⟩)
            · obtain ⟨_, _, _, _, _, _, _, _, _, _, _, _, _, _, _, _, _, _, _, _, _, ⟨e', es', k1, k2, k3⟩, -⟩ := id h1
              rw [h44] at k1
              injection k1 with k1
              subst k1
              have a1 := (sigDecode_iff e 44 _).2 ⟨by simpa using List.find?_some h44, es, hes, hg⟩
              have a2 := (sigDecode_iff e 44 _).2 ⟨by simpa using List.find?_some h44, es', k2, k3⟩
              rw [a1] at a2
              simp only [Prod.mk.injEq, true_and] at a2
              subst a2
              obtain ⟨r1, r2, hs, rfl, rfl⟩ := (hri _ _).2 h1
              rw [hs]
              dsimp only
              rw [hv.some _ _ _ (by simp)]
              simpa using h2
            · exact absurd (by simpa using List.find?_some h44) (h1 e (List.mem_of_find?_eq_some h44))
            · exact absurd (by simpa using List.find?_some h46) (h1 sv (List.mem_of_find?_eq_some h46))
      · rw [if_neg hi, hv.none]
        simp only [Bool.false_eq_true, false_iff]
        have hbad : ∀ es info, ReadsAs e.value es → SigGrammar es info → False := by
          intro es info h1 h2
          have := (sigDecode_iff e 44 info).2 ⟨by simpa using List.find?_some h44, es, h1, h2⟩
          rw [this] at hi
          exact hi rfl
        rintro (⟨info, signed, sig, h1, h2⟩ | ⟨info, signed, sig, -, h1 | ⟨-, e', es, info', k1, k2, k3⟩, -⟩)
        · obtain ⟨_, _, _, _, _, _, _, _, _, _, _, _, _, _, _, _, _, _, _, _, _, ⟨e', es', k1, k2, k3⟩, -⟩ := id h1
          rw [h44] at k1
          injection k1 with k1
          subst k1
          exact hbad _ _ k2 k3
        · exact absurd (by simpa using List.find?_some h44) (h1 e (List.mem_of_find?_eq_some h44))
        · injection k1 with k1
          subst k1
          exact hbad _ _ k2 k3
  constructor
  · intro h
    unfold checkInterest at h
    split at h
    · rename_i b hb
      obtain ⟨h1, h2⟩ := fromBuffer_whole hb
      simp only [Option.map_eq_some_iff] at h
      obtain ⟨f, hf, hx⟩ := h
      obtain ⟨ht, -⟩ := (interestDecode_iff _ _ _ _).1 hf
      have hb' : b = ⟨5, w, b.value⟩ := by cases b; simp_all
      rw [hb'] at hf hx
      rw [ht] at h2
      rcases (key b.value f h2 hf).1 hx with ⟨i, s, g, k⟩ | ⟨i, s, g, k⟩
      · exact .inl ⟨f, i, s, g, k⟩
      · exact .inr ⟨f, i, s, g, k⟩
    · cases h
  · intro h
    have : ∃ f v, TlvForm w 5 v ∧ interestDecode H auto ⟨5, w, v⟩ = some f ∧ ve (parseInterest ⟨5, w, v⟩ f) = true := by
      rcases h with ⟨f, i, s, g, h1, h2⟩ | ⟨f, i, s, g, h1, h2⟩
      · obtain ⟨v, _, _, _, _, _, _, _, _, _, k1, k2, -⟩ := id h1
        exact ⟨f, v, k1, k2, (key v f k1 k2).2 (.inl ⟨i, s, g, h1, h2⟩)⟩
      · obtain ⟨v, _, _, _, _, _, _, _, k1, k2, -⟩ := id h1
        exact ⟨f, v, k1, k2, (key v f k1 k2).2 (.inr ⟨i, s, g, h1, h2⟩)⟩
    obtain ⟨f, v, k1, k2, k3⟩ := this
    unfold checkInterest
    rw [fromBuffer_form k1]
    dsimp only
    rw [k2, Option.map_some, k3]

/-! ### C117: Interests -/

/-- C117: octets are an Interest whose signature is accepted exactly if it has the parts of a signed Interest and the key accepts the
signature value for the signed octets; the old way of signing counts only if there is no signature information or no signature
value among the parameters. -/
theorem C117_interest (H : Bytes → Bytes) (auto : Bool) (key : VKey) (w : Bytes) :
    checkInterest H auto (verify (some key)) w = some true ↔
      (∃ f info signed sig, InterestParts H auto w f info signed sig ∧ key.accepts signed sig = true) ∨
      (∃ f info signed sig, OldParts H auto w f info signed sig ∧
        ((∀ e ∈ f.params, e.type ≠ 44) ∨ (∀ e ∈ f.params, e.type ≠ 46) ∧
          ∃ e es info', f.params.find? (fun e => e.type = 44) = some e ∧ ReadsAs e.value es ∧ SigGrammar es info') ∧
        key.accepts signed sig = true) :=
  checkInterest_parts H auto (verifies_key key) w

/-- C117: without a certificate, exactly those whose signature type is DigestSha256 and whose signature is the digest of the octets. -/
theorem C117_digest (H : Bytes → Bytes) (auto : Bool) (sha : Bytes → Bytes) (w : Bytes) :
    checkInterest H auto (verifyCert sha none) w = some true ↔
      (∃ f info signed sig, InterestParts H auto w f info signed sig ∧ info.type = some 0 ∧ sig = sha signed) ∨
      (∃ f info signed sig, OldParts H auto w f info signed sig ∧
        ((∀ e ∈ f.params, e.type ≠ 44) ∨ (∀ e ∈ f.params, e.type ≠ 46) ∧
          ∃ e es info', f.params.find? (fun e => e.type = 44) = some e ∧ ReadsAs e.value es ∧ SigGrammar es info') ∧
        info.type = some 0 ∧ sig = sha signed) := by
  rw [checkInterest_parts H auto (verifies_digest sha) w]
  simp only [Bool.and_eq_true, decide_eq_true_eq]

/-- C117: octets that are no public key verify nothing. -/
theorem C117_no_key (H : Bytes → Bytes) (auto : Bool) (w : Bytes) : checkInterest H auto (verify none) w ≠ some true := by
  have hv : Verifies (verify none) (fun _ _ _ => false) := ⟨rfl, fun t bufs sig _ => by simp [verify]⟩
  intro h
  rcases (checkInterest_parts H auto hv w).1 h with ⟨_, _, _, _, _, h⟩ | ⟨_, _, _, _, _, _, h⟩ <;> cases h

/-- C117: an Interest without a signature value among its parameters whose name has fewer than two components is accepted by no key. -/
theorem C117_unsigned (H : Bytes → Bytes) (auto : Bool) (key : VKey) (w v : Bytes) (f : IFields) (hw : TlvForm w 5 v)
    (hd : interestDecode H auto ⟨5, w, v⟩ = some f) (h46 : ∀ e ∈ f.params, e.type ≠ 46) (hn : f.name.length < 2) :
    checkInterest H auto (verify (some key)) w = some false := by
  cases hx : parseInterest ⟨5, w, v⟩ f with
  | mk t bufs sig =>
  have hc : checkInterest H auto (verify (some key)) w = some (verify (some key) (parseInterest ⟨5, w, v⟩ f)) := by
    unfold checkInterest
    rw [fromBuffer_form hw]
    dsimp only
    rw [hd, Option.map_some]
  cases hb : checkInterest H auto (verify (some key)) w with
  | none => rw [hc] at hb; cases hb
  | some x =>
    cases x with
    | false => rfl
    | true =>
      exfalso
      rcases (C117_interest H auto key w).1 hb with ⟨f', info, signed, sig, h, -⟩ | ⟨f', info, signed, sig, h, -⟩
      · obtain ⟨v', n', cs', c, pre', p', mid, skip, sv', post', k1, k2, k3, k4, k5, k6, k7, k8, k9, k10, k11, -⟩ := h
        obtain ⟨-, rfl⟩ := tlvForm_unique hw k1
        rw [hd] at k2
        injection k2 with k2
        subst k2
        obtain ⟨-, es', hr, g, -⟩ := (interestDecode_iff _ _ _ _).1 hd
        obtain ⟨n, pre, tail, g0, -, -, -, g4, g5, -, -, -, -, -, -, -, -, -, -, -, g17⟩ := g
        subst g0
        have := readsAs_unique hr k3
        simp only [List.cons.injEq] at this
        obtain ⟨rfl, hpp⟩ := this
        cases tail with
        | nil =>
          rw [List.append_nil] at hpp
          exact absurd k7 (g4 p' (by rw [hpp]; simp))
        | cons p post =>
          have hp : p.type = 36 := g5 p (by simp)
          obtain ⟨rfl, rfl, rfl⟩ := split_at g4 k6 hp k7 hpp
          refine h46 sv' ?_ k11
          rw [g17]
          simp [k11]
      · obtain ⟨v', n', rest, cs', i, c, ib, t, k1, k2, k3, k4, -⟩ := h
        obtain ⟨-, rfl⟩ := tlvForm_unique hw k1
        rw [hd] at k2
        injection k2 with k2
        subst k2
        obtain ⟨-, es', hr, g, -⟩ := (interestDecode_iff _ _ _ _).1 hd
        obtain ⟨n, pre, tail, g0, ⟨-, cs, g1, g2⟩, -⟩ := g
        subst g0
        have := readsAs_unique hr k3
        simp only [List.cons.injEq] at this
        obtain ⟨rfl, -⟩ := this
        have := readsAs_unique g1 k4
        subst this
        rw [g2] at hn
        simp at hn
        omega

/-- What a verifier makes of an encoded Interest whose name ends with the digest and which has a signature. -/
theorem encoded_v (H : Bytes → Bytes) (auto : Bool) {ve : Parsed → Bool} {V : Option Nat → Bytes → Bytes → Bool} (hv : Verifies ve V)
    (f : IFields) (h : InterestWF H f)
    (hl : ∃ c, f.name.getLast? = some c ∧ c.type = 2) {e sv : Raw} {es : List Raw} {info : SigInfo}
    (h44 : f.params.find? (fun e => e.type = 44) = some e) (hes : ReadsAs e.value es) (hg : SigGrammar es info)
    (h46 : f.params.find? (fun e => e.type = 46) = some sv) :
    checkInterest H auto ve f.encode =
      some (V info.type (wires (nameElems f.name.dropLast) ++ wires (f.params.takeWhile (fun e => e.type ≠ 46))) sv.value) := by
  obtain ⟨b, h1, h2, h3⟩ := C31_encoded H auto f h hl ⟨e, List.mem_of_find?_eq_some h44, by simpa using List.find?_some h44⟩
  have hi : SigInfo.wireDecode e 44 = (true, info) := (sigDecode_iff e 44 info).2 ⟨by simpa using List.find?_some h44, es, hes, hg⟩
  unfold checkInterest
  rw [h1]
  dsimp only
  rw [h2, Option.map_some]
  have hp : parseInterest b f = ⟨info.type, [wires (nameElems f.name.dropLast), wires (f.params.takeWhile (fun e => e.type ≠ 46))], sv.value⟩ := by
    unfold parseInterest
    rw [h44]
    dsimp only
    rw [hi, if_pos rfl, h46]
    dsimp only
    rw [h3]
  rw [hp, hv.some _ _ _ (by simp)]
  simp

/-- C117: an encoded Interest whose name ends with the digest and which has a signature: a key accepts it exactly if it accepts the
signature value for the octets of the name without the digest followed by those of the parameters before the signature value. -/
theorem C117_encoded (H : Bytes → Bytes) (auto : Bool) (key : VKey) (f : IFields) (h : InterestWF H f)
    (hl : ∃ c, f.name.getLast? = some c ∧ c.type = 2) {e sv : Raw} {es : List Raw} {info : SigInfo}
    (h44 : f.params.find? (fun e => e.type = 44) = some e) (hes : ReadsAs e.value es) (hg : SigGrammar es info)
    (h46 : f.params.find? (fun e => e.type = 46) = some sv) :
    checkInterest H auto (verify (some key)) f.encode =
      some (key.accepts (wires (nameElems f.name.dropLast) ++ wires (f.params.takeWhile (fun e => e.type ≠ 46))) sv.value) :=
  encoded_v H auto (verifies_key key) f h hl h44 hes hg h46

/-- An Interest received, as its owner sent it. -/
def Sent (H : Bytes → Bytes) (auto : Bool) (S : List (Raw × IFields)) (m : Bytes) : Prop :=
  ∃ b f r1 r2, (b, f) ∈ S ∧ interestDecode H auto b = some f ∧ signedRanges b f = some (r1, r2) ∧ m = r1 ++ r2

/-- Claim: if a key accepts only what its owner signed, and these are the Interests `S`, then an Interest that is accepted has the name
(but for the digest) and the parameters of one of them. -/
def C117_authentic_claim : Prop :=
  ∀ (H : Bytes → Bytes) (auto : Bool) (key : VKey) (S : List (Raw × IFields)), (∀ x, (H x).length = 32) →
    (∀ m s, key.accepts m s = true → Sent H auto S m) →
    ∀ w v f, TlvForm w 5 v → interestDecode H auto ⟨5, w, v⟩ = some f → checkInterest H auto (verify (some key)) w = some true →
      (∃ e ∈ f.params, e.type = 44) → (∃ e ∈ f.params, e.type = 46) →
      ∃ x ∈ S, f.name.dropLast = x.2.name.dropLast ∧
        f.params.takeWhile (fun e => e.type ≠ 46) = x.2.params.takeWhile (fun e => e.type ≠ 46)

/-- The claim fails: an Interest for `/A/36=x/<digest>` with parameters `y` has the same signed octets as one for `/A/<digest>` with
parameters `x`: who has seen one can make the other. -/
theorem C117_authentic_counterexample : ¬ C117_authentic_claim := by
  intro h
  have hc : fromBuffer concat1.wire = some (concat1, []) := by decide
  obtain ⟨x1, x2⟩ := fromBuffer_whole hc
  obtain ⟨x, hx, he, -⟩ := h zeroHash true (.pub (fun m _ => m == [8, 1, 65, 36, 1, 7, 36, 1, 8, 44, 3, 27, 1, 0])) [(concat2, concatF2)]
    (by intro x; simp [zeroHash])
    (by
      intro m s hm
      simp only [VKey.accepts, beq_iff_eq] at hm
      exact ⟨concat2, concatF2, [8, 1, 65], [36, 1, 7, 36, 1, 8, 44, 3, 27, 1, 0], by simp, by decide, by decide, hm⟩)
    concat1.wire concat1.value concatF1 x2 (by decide) (by decide)
    ⟨binaryBlock 44 [27, 1, 0], by simp [concatF1], rfl⟩ ⟨binaryBlock 46 [], by simp [concatF1], rfl⟩
  simp only [List.mem_singleton] at hx
  subst hx
  revert he
  decide

theorem parse_ranges {H : Bytes → Bytes} {auto : Bool} {key : VKey} {w v : Bytes} {f : IFields} (hw : TlvForm w 5 v)
    (hd : interestDecode H auto ⟨5, w, v⟩ = some f) (hc : checkInterest H auto (verify (some key)) w = some true)
    (h44 : ∃ e ∈ f.params, e.type = 44) (h46 : ∃ e ∈ f.params, e.type = 46) :
    ∃ r1 r2 sig, signedRanges ⟨5, w, v⟩ f = some (r1, r2) ∧ key.accepts (r1 ++ r2) sig = true := by
  unfold checkInterest at hc
  rw [fromBuffer_form hw] at hc
  dsimp only at hc
  rw [hd, Option.map_some] at hc
  injection hc with hc
  unfold parseInterest at hc
  cases h4 : f.params.find? (fun e => e.type = 44) with
  | none =>
    rw [List.find?_eq_none] at h4
    obtain ⟨e, he, ht⟩ := h44
    exact absurd (by simpa using ht) (h4 e he)
  | some e =>
    cases h6 : f.params.find? (fun e => e.type = 46) with
    | none =>
      rw [List.find?_eq_none] at h6
      obtain ⟨e, he, ht⟩ := h46
      exact absurd (by simpa using ht) (h6 e he)
    | some sv =>
      rw [h4] at hc
      dsimp only at hc
      split at hc
      · rw [h6] at hc
        dsimp only at hc
        cases hs : signedRanges ⟨5, w, v⟩ f with
        | none => rw [hs] at hc; cases hc
        | some r =>
          obtain ⟨r1, r2⟩ := r
          rw [hs] at hc
          dsimp only at hc
          rw [verify_two] at hc
          exact ⟨r1, r2, _, rfl, hc⟩
      · cases hc

/-- What does hold: authenticity if no name has a component whose type is that of the parameters. -/
theorem C117_authentic_partial (H : Bytes → Bytes) (auto : Bool) (key : VKey) (S : List (Raw × IFields))
    (hk : ∀ m s, key.accepts m s = true → Sent H auto S m) (hS : ∀ x ∈ S, ∀ c ∈ x.2.name, c.type ≠ 36)
    (w v : Bytes) (f : IFields) (hw : TlvForm w 5 v) (hd : interestDecode H auto ⟨5, w, v⟩ = some f)
    (hc : checkInterest H auto (verify (some key)) w = some true)
    (h44 : ∃ e ∈ f.params, e.type = 44) (h46 : ∃ e ∈ f.params, e.type = 46) (hn : ∀ c ∈ f.name, c.type ≠ 36) :
    ∃ x ∈ S, f.name.dropLast = x.2.name.dropLast ∧
      f.params.takeWhile (fun e => e.type ≠ 46) = x.2.params.takeWhile (fun e => e.type ≠ 46) := by
  obtain ⟨r1, r2, sig, h1, h2⟩ := parse_ranges hw hd hc h44 h46
  obtain ⟨b, f', r1', r2', hm, k1, k2, k3⟩ := hk _ _ h2
  obtain ⟨a1, a2⟩ := C31_concat_partial H auto _ _ f f' r1 r2 r1' r2' hd h1 k1 k2 hn (hS _ hm) k3
  exact ⟨_, hm, a1, a2⟩

/-! ### C118: one kind of packet for another -/

/-- Claim: octets signed for an Interest are never those of a Data packet. -/
def C118_separate_claim : Prop :=
  ∀ (H : Bytes → Bytes) (auto : Bool) (w w' : Bytes) (f : DFields) (f' : IFields) (info : SigInfo) (signed signed' sig sig' : Bytes),
    (∀ x, (H x).length = 32) → DataParts w f signed sig → InterestParts H auto w' f' info signed' sig' → signed ≠ signed'

/-- An Interest whose name has components of types 7 and 22, and a Data packet. -/
def crossInterest : Bytes := [5, 56, 7, 44, 7, 3, 8, 1, 65, 22, 3, 27, 1, 3, 2, 32] ++ List.replicate 32 0 ++ [36, 0, 44, 3, 27, 1, 3, 46, 1, 9]
def crossData : Bytes := [6, 20, 7, 3, 8, 1, 65, 22, 3, 27, 1, 3, 36, 0, 44, 3, 27, 1, 3, 23, 1, 9]

/-- The key that accepts one text only. -/
def oneText (m : Bytes) : VKey := .pub (fun x _ => x == m)

/-- The claim fails: the names of component types are those of packet elements, and what is signed has no label that says for which
kind of packet it is. Whoever gets an Interest signed whose name they choose gets a Data packet signed, whose name and content they
choose. -/
theorem C118_separate_counterexample : ¬ C118_separate_claim := by
  intro h
  have h1 : checkData (verify (some (oneText [7, 3, 8, 1, 65, 22, 3, 27, 1, 3, 36, 0, 44, 3, 27, 1, 3]))) crossData = some true := by decide
  have h2 : checkInterest zeroHash true (verify (some (oneText [7, 3, 8, 1, 65, 22, 3, 27, 1, 3, 36, 0, 44, 3, 27, 1, 3]))) crossInterest = some true := by decide
  obtain ⟨f, s, g, a1, a2⟩ := (C116_data _ _).1 h1
  rcases (C117_interest _ _ _ _).1 h2 with ⟨f', i', s', g', b1, b2⟩ | ⟨f', i', s', g', b1, b3, b2⟩
  · refine h zeroHash true _ _ _ _ _ _ _ _ _ (by intro x; simp [zeroHash]) a1 b1 ?_
    simp only [oneText, VKey.accepts, beq_iff_eq] at a2 b2
    rw [a2, b2]
  · exfalso
    obtain ⟨v', n', rest, cs', i, c, ib, t, k1, k2, -⟩ := b1
    have hf : fromBuffer crossInterest = some (⟨5, crossInterest, crossInterest.drop 2⟩, []) := by decide
    obtain ⟨-, rfl⟩ := tlvForm_unique k1 (fromBuffer_whole hf).2
    have hd : interestDecode zeroHash true ⟨5, crossInterest, crossInterest.drop 2⟩ =
      some { IFields.cleared [⟨7, [8, 1, 65]⟩, ⟨22, [27, 1, 3]⟩, ⟨2, List.replicate 32 0⟩] with
        params := [binaryBlock 36 [], binaryBlock 44 [27, 1, 3], binaryBlock 46 [9]] } := by decide
    rw [hd] at k2
    injection k2 with k2
    subst k2
    rcases b3 with b3 | ⟨b3, -⟩
    · exact b3 (binaryBlock 44 [27, 1, 3]) (by simp) rfl
    · exact b3 (binaryBlock 46 [9]) (by simp) rfl

/-- What does hold: what is signed for a Data packet differs from what is signed for an Interest, in the way of today or in the old
one, whose name does not begin with a component of the type of a name. -/
theorem C118_separate_partial (H : Bytes → Bytes) (auto : Bool) (w w' : Bytes) (f : DFields) (f' : IFields) (info : SigInfo)
    (signed signed' sig sig' : Bytes) (hd : DataParts w f signed sig)
    (hi : InterestParts H auto w' f' info signed' sig' ∨ OldParts H auto w' f' info signed' sig')
    (hn : ∀ c ∈ f'.name.head?, c.type ≠ 7) : signed ≠ signed' := by
  rintro rfl
  obtain ⟨v, n, rest, sv, post, h1, h2, h3, h4, h5, h6, h7, h8⟩ := hd
  have e1 : ReadsAs signed (n :: rest) := ⟨h7, fun e he => readsAs_mem h3 e (by
    simp only [List.mem_cons, List.mem_append] at he ⊢
    rcases he with he | he
    · exact .inl (.inl he)
    · exact .inl (.inr he))⟩
  rcases hi with ⟨v', n', cs', c, pre', p', mid, skip, sv', post', k1, k2, k3, k4, k5, k6, k7, k8, k9, k10, k11, k12, k13, -⟩ |
    ⟨v', n', rest', cs', i, c, ib, t, k1, k2, k3, k4, k5, k6, k7, k8⟩
  · have e2 : ReadsAs signed (cs' ++ p' :: mid) := ⟨k13, fun e he => by
      simp only [List.mem_append, List.mem_cons] at he
      rcases he with he | he | he
      · exact readsAs_mem k4 e (by simp [he])
      · exact readsAs_mem k3 e (by simp [he])
      · exact readsAs_mem k3 e (by simp [he])⟩
    have hu := readsAs_unique e1 e2
    obtain ⟨-, es', hr, g, -⟩ := (interestDecode_iff _ _ _ _).1 k2
    obtain ⟨n1, pre1, tail1, g0, ⟨-, cs1, g1, g2⟩, -⟩ := g
    subst g0
    have := readsAs_unique hr k3
    simp only [List.cons.injEq] at this
    obtain ⟨rfl, -⟩ := this
    have := readsAs_unique g1 k4
    subst this
    cases cs' with
    | nil =>
      simp only [List.nil_append, List.cons.injEq] at hu
      rw [hu.1] at h4; omega
    | cons x cs' =>
      simp only [List.cons_append, List.cons.injEq] at hu
      rw [g2] at hn
      exact hn ⟨x.type, x.value⟩ (by simp) (by rw [← hu.1]; exact h4)
  · have e2 : ReadsAs signed (cs' ++ [i]) := ⟨k8, fun e he => readsAs_mem k4 e (by
      simp only [List.mem_append, List.mem_cons, List.not_mem_nil, or_false] at he ⊢
      rcases he with he | he
      · exact .inl he
      · exact .inr (.inl he))⟩
    have hu := readsAs_unique e1 e2
    obtain ⟨-, es', hr, g, -⟩ := (interestDecode_iff _ _ _ _).1 k2
    obtain ⟨n1, pre1, tail1, g0, ⟨-, cs1, g1, g2⟩, -⟩ := g
    subst g0
    have := readsAs_unique hr k3
    simp only [List.cons.injEq] at this
    obtain ⟨rfl, -⟩ := this
    have := readsAs_unique g1 k4
    subst this
    rw [g2] at hn
    cases cs' with
    | nil =>
      simp only [List.nil_append, List.cons.injEq] at hu
      exact hn ⟨i.type, i.value⟩ (by simp) (by rw [← hu.1]; exact h4)
    | cons x cs' =>
      simp only [List.cons_append, List.cons.injEq] at hu
      exact hn ⟨x.type, x.value⟩ (by simp) (by rw [← hu.1]; exact h4)

/-- C118: so a key whose owner signs only Interests that do not begin so is not misused: no Data packet is accepted by it. -/
theorem C118_no_data (H : Bytes → Bytes) (auto : Bool) (key : VKey)
    (hk : ∀ m s, key.accepts m s = true → ∃ w f info sig, (InterestParts H auto w f info m sig ∨ OldParts H auto w f info m sig) ∧
      ∀ c ∈ f.name.head?, c.type ≠ 7) (w : Bytes) : checkData (verify (some key)) w ≠ some true := by
  intro h
  obtain ⟨f, s, g, h1, h2⟩ := (C116_data key w).1 h
  obtain ⟨w', f', info, sig, h3, h4⟩ := hk _ _ h2
  exact C118_separate_partial H auto w w' f f' info s s g sig h1 h3 h4 rfl

/-- An Interest signed in the old way, with a key that accepts it. -/
example : checkInterest zeroHash true (verify (some (oneText [8, 1, 65, 8, 5, 22, 3, 27, 1, 3])))
    [5, 17, 7, 15, 8, 1, 65, 8, 5, 22, 3, 27, 1, 3, 8, 3, 23, 1, 9] = some true := by decide

/-- One signed in the new way. -/
example : checkInterest zeroHash true (verify (some (oneText [8, 1, 65, 36, 1, 7, 44, 3, 27, 1, 3])))
    ([5, 51, 7, 37, 8, 1, 65, 2, 32] ++ List.replicate 32 0 ++ [36, 1, 7, 44, 3, 27, 1, 3, 46, 2, 1, 2]) = some true := by decide

end Ndn.Verify
