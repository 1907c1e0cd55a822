import Verif.Cert.TextLemmas
import Verif.Packet.Lemmas
/-
Lemmas on validity periods.
-/
namespace Ndn.Cert
open Spec Tlv Block Packet

theorem minTime_eq : minTime = -9223372036 := by decide
theorem maxTime_eq : maxTime = 9223372036 := by decide

theorem int64_iff (t : Int) : int64 (t * nsPerSec) = true ↔ Representable t := by
  unfold int64 Representable nsPerSec
  rw [Bool.and_eq_true, decide_eq_true_eq, decide_eq_true_eq]

theorem representable_iff (t : Int) : Representable t ↔ -9223372036 ≤ t ∧ t ≤ 9223372036 := by
  unfold Representable; omega

theorem nearest_repr (t : Int) : Representable (nearest t) := by
  rw [representable_iff]; unfold nearest; omega

theorem nearest_self {t : Int} (h : Representable t) : nearest t = t := by
  rw [representable_iff] at h; unfold nearest; omega

theorem valid_10000 : Date.Valid ⟨10000, 1, 1⟩ := ⟨by decide, by decide⟩
theorem num_10000 : num ⟨10000, 1, 1⟩ = 5373485 := by decide +kernel

theorem year_le {n : Nat} (h : n < 3141085) : (start.plus n).year ≤ 9999 := by
  have hv := plus_spec n
  rcases Nat.lt_or_ge 9999 (start.plus n).year with hy | hy
  · exfalso
    have hm := valid_month hv.2
    have hd := hv.2.1
    have : num ⟨10000, 1, 1⟩ ≤ num (start.plus n) := by
      rcases before_total ⟨10000, 1, 1⟩ (start.plus n) with hb | hb | hb
      · exact Nat.le_of_lt (num_lt valid_10000 hv.2 hb)
      · rw [hb]; exact Nat.le_refl _
      · exfalso; unfold Before at hb; simp only at hb; omega
    rw [num_10000, hv.1] at this
    clear hv hm hd
    omega
  · exact hy

theorem days_bound {n hh mm ss : Nat} (h : instant n hh mm ss ≤ 9223372036) : n < 3141085 := by
  have hd : daysTo1970 = 208188 := rfl
  unfold instant at h
  rw [hd] at h
  omega

theorem iso_repr {t : Int} (h : Representable t) :
    ∃ n hh mm ss, Clock hh mm ss ∧ t = instant n hh mm ss ∧ (start.plus n).year ≤ 9999 ∧ isoString t = text (start.plus n) hh mm ss := by
  rw [representable_iff] at h
  have e0 : instant 0 0 0 0 = -17987443200 := by decide
  obtain ⟨n, hh, mm, ss, hc, ht⟩ := instant_exists t (by rw [e0]; omega)
  have hn := days_bound (ht ▸ h.2)
  exact ⟨n, hh, mm, ss, hc, ht, year_le hn, by rw [ht, isoString_instant _ _ _ _ hc]⟩

/-- What a text of an existing date and time is decoded to. -/
theorem decodeTime_text (other : Bytes → Parsed) (n hh mm ss : Nat) (hc : Clock hh mm ss) (hy : (start.plus n).year ≤ 9999) :
    decodeTime other (text (start.plus n) hh mm ss) = (.ok, nearest (instant n hh mm ss)) := by
  obtain ⟨n1, h1, m1, s1, c1, t1, y1, e1⟩ := iso_repr (t := minTime) (by rw [representable_iff, minTime_eq]; omega)
  obtain ⟨n2, h2, m2, s2, c2, t2, y2, e2⟩ := iso_repr (t := maxTime) (by rw [representable_iff, maxTime_eq]; omega)
  unfold decodeTime
  rw [e1, text_lt _ _ _ _ _ _ _ _ hc c1 hy y1, e2, text_lt _ _ _ _ _ _ _ _ c2 hc y2 hy, ← t1, ← t2,
    fromIso_text other n hh mm ss hy (by have := hc.1; omega) (by have := hc.2.1; omega) (by have := hc.2.2; omega)]
  rw [minTime_eq, maxTime_eq]
  generalize instant n hh mm ss = t
  by_cases ha : t < -9223372036
  · simp only [ha, decide_true, if_true, nearest]
    congr 1; omega
  · by_cases hb : 9223372036 < t
    · simp only [ha, hb, decide_true, decide_false, if_true, nearest]
      simp only [Bool.false_eq_true, if_false]
      congr 1; omega
    · have hr : Representable t := by rw [representable_iff]; omega
      simp only [ha, hb, decide_false, Bool.false_eq_true, if_false]
      rw [if_pos ((int64_iff t).2 hr), nearest_self hr]

theorem decodeTime_iso (other : Bytes → Parsed) {t : Int} (h : Representable t) : decodeTime other (isoString t) = (.ok, t) := by
  obtain ⟨n, hh, mm, ss, hc, ht, hy, e⟩ := iso_repr h
  rw [e, decodeTime_text other n hh mm ss hc hy, ← ht, nearest_self h]

theorem decodeTime_repr (other : Bytes → Parsed) {v : Bytes} {t : Int} (h : decodeTime other v = (.ok, t)) : Representable t := by
  unfold decodeTime at h
  split at h
  · simp only [Prod.mk.injEq, true_and] at h; rw [← h, representable_iff, minTime_eq]; omega
  · split at h
    · simp only [Prod.mk.injEq, true_and] at h; rw [← h, representable_iff, maxTime_eq]; omega
    · split at h
      · split at h
        · rename_i hi
          simp only [Prod.mk.injEq, true_and] at h; rw [← h]; exact (int64_iff _).1 hi
        · simp at h
      · simp at h
      · simp at h

theorem text_length (d : Date) (hh mm ss : Nat) : (text d hh mm ss).length = 15 := by
  simp [text, decimal_length]

theorem isoString_length {t : Int} (h : Representable t) : (isoString t).length = 15 := by
  obtain ⟨n, hh, mm, ss, _, _, _, e⟩ := iso_repr h
  rw [e, text_length]

/-- The elements of a period. -/
theorem parse_pair (x y : Bytes) (hx : x.length < 2 ^ 64) (hy : y.length < 2 ^ 64) :
    parseElements (tlvBytes 254 x ++ tlvBytes 255 y) = some [⟨254, tlvBytes 254 x, x⟩, ⟨255, tlvBytes 255 y, y⟩] := by
  have := parseElements_canon (l := [(254, x), (255, y)]) (by
    intro p hp
    simp only [List.mem_cons, List.not_mem_nil, or_false] at hp
    rcases hp with rfl | rfl
    · exact ⟨by show 1 ≤ 254; decide, by show 254 ≤ 2 ^ 32 - 1; decide, hx⟩
    · exact ⟨by show 1 ≤ 255; decide, by show 255 ≤ 2 ^ 32 - 1; decide, hy⟩)
  simpa [canon, mkRaw, tlvBytes_eq] using this

theorem floorSec_spec (ns : Int) : floorSec ns * nsPerSec ≤ ns ∧ ns < (floorSec ns + 1) * nsPerSec := by
  unfold floorSec nsPerSec
  rcases Int.le_total 0 ns with h | h
  · rw [Int.tdiv_eq_ediv_of_nonneg h]
    simp only
    split <;> omega
  · have e : Int.tdiv ns 1000000000 = -((-ns) / 1000000000) := by
      have := Int.neg_tdiv (-ns) 1000000000
      rw [Int.neg_neg, Int.tdiv_eq_ediv_of_nonneg (a := -ns) (by omega)] at this
      exact this
    rw [e]
    simp only
    split <;> omega

theorem ceilSec_spec (ns : Int) : ns ≤ ceilSec ns * nsPerSec ∧ (ceilSec ns - 1) * nsPerSec < ns := by
  unfold ceilSec nsPerSec
  rcases Int.le_total 0 ns with h | h
  · rw [Int.tdiv_eq_ediv_of_nonneg h]
    simp only
    split <;> omega
  · have e : Int.tdiv ns 1000000000 = -((-ns) / 1000000000) := by
      have := Int.neg_tdiv (-ns) 1000000000
      rw [Int.neg_neg, Int.tdiv_eq_ediv_of_nonneg (a := -ns) (by omega)] at this
      exact this
    rw [e]
    simp only
    split <;> omega

/-- A successful decode, in terms of the elements. -/
theorem wireDecode_iff (other : Bytes → Parsed) (p q : Validity) (b : Raw) :
    p.wireDecode other b = (.ok, q) ↔
      b.type = 253 ∧ ∃ nb na, parseElements b.value = some [nb, na] ∧ nb.type = 254 ∧ nb.value.length = 15 ∧
        na.type = 255 ∧ na.value.length = 15 ∧ decodeTime other nb.value = (.ok, q.notBefore) ∧
        decodeTime other na.value = (.ok, q.notAfter) ∧ q.wire = some b.wire := by
  obtain ⟨qb, qa, qw⟩ := q
  unfold Validity.wireDecode
  by_cases ht : b.type = 253
  · simp only [ht, ne_eq, not_true_eq_false, if_false, true_and]
    cases hp : parseElements b.value with
    | none => simp
    | some es =>
      match es, hp with
      | [], _ => simp
      | [_], _ => simp
      | a :: c :: d :: es, _ => simp
      | [nb, na], _ =>
        simp only
        by_cases h1 : nb.type = 254 ∧ nb.value.length = 15
        · rw [if_neg (by omega)]
          by_cases h2 : na.type = 255 ∧ na.value.length = 15
          · rw [if_neg (by omega)]
            rcases hd1 : decodeTime other nb.value with ⟨o1, t1⟩
            rcases hd2 : decodeTime other na.value with ⟨o2, t2⟩
            constructor
            · intro h
              cases o1 <;> simp only at h
              · cases o2 <;> simp only [Prod.mk.injEq, reduceCtorEq, false_and, true_and, Validity.mk.injEq] at h
                exact ⟨nb, na, rfl, h1.1, h1.2, h2.1, h2.2, by rw [hd1, h.1], by rw [hd2, h.2.1], h.2.2.symm⟩
              all_goals simp at h
            · rintro ⟨nb', na', he, _, _, _, _, e1, e2, e3⟩
              simp only [Option.some.injEq, List.cons.injEq, and_true] at he
              obtain ⟨rfl, rfl⟩ := he
              rw [hd1] at e1; rw [hd2] at e2
              simp only [Prod.mk.injEq] at e1 e2
              obtain ⟨rfl, rfl⟩ := e1
              obtain ⟨rfl, rfl⟩ := e2
              simp [← e3]
          · rw [if_pos (by omega)]
            constructor
            · intro h; simp at h
            · rintro ⟨nb', na', he, _, _, e1, e2, _⟩
              simp only [Option.some.injEq, List.cons.injEq, and_true] at he
              obtain ⟨rfl, rfl⟩ := he
              exact absurd ⟨e1, e2⟩ h2
        · rw [if_pos (by omega)]
          constructor
          · intro h; simp at h
          · rintro ⟨nb', na', he, e1, e2, _⟩
            simp only [Option.some.injEq, List.cons.injEq, and_true] at he
            obtain ⟨rfl, rfl⟩ := he
            exact absurd ⟨e1, e2⟩ h1
  · simp [ht]

end Ndn.Cert
