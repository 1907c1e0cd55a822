import Verif.Cert.CalLemmas
/-
Lemmas on the texts of instants: printing, reading, and their order.
-/
namespace Ndn.Cert
open Spec

theorem dig2_eq (n : Nat) : dig2 n = decimal 2 n := by
  simp [dig2, decimal, digit]

theorem dig4_eq (n : Nat) : dig4 n = decimal 4 n := by
  simp [dig4, decimal, digit, Nat.div_div_eq_div_mul]

theorem decimal_length (w n : Nat) : (decimal w n).length = w := by
  induction w generalizing n with
  | zero => rfl
  | succ w ih => simp [decimal, ih]

theorem number_append (x y : Bytes) (acc : Nat) : number (x ++ y) acc = (number x acc).bind (number y) := by
  induction x generalizing acc with
  | nil => rfl
  | cons c x ih =>
    simp only [List.cons_append, number]
    split
    · exact ih _
    · rfl

theorem digit_toNat (n : Nat) : (UInt8.ofNat (48 + n % 10)).toNat = 48 + n % 10 := by
  rw [UInt8.toNat_ofNat']
  omega

theorem number_decimal (w n acc : Nat) (h : n < 10 ^ w) : number (decimal w n) acc = some (acc * 10 ^ w + n) := by
  induction w generalizing n with
  | zero => simp at h; subst h; simp [decimal, number]
  | succ w ih =>
    have h' : n / 10 < 10 ^ w := by rw [Nat.pow_succ] at h; omega
    simp only [decimal, number_append, ih _ h', Option.bind_some, number, digit_toNat]
    rw [if_pos (by omega)]
    congr 1
    rw [Nat.pow_succ, ← Nat.mul_assoc]
    generalize acc * 10 ^ w = k
    omega

theorem strLt_decimal (w a b : Nat) (x y : Bytes) (ha : a < 10 ^ w) (hb : b < 10 ^ w) :
    strLt (decimal w a ++ x) (decimal w b ++ y) = (decide (a < b) || (decide (a = b) && strLt x y)) := by
  induction w generalizing a b x y with
  | zero =>
    simp at ha hb; subst ha; subst hb; simp [decimal]
  | succ w ih =>
    have ha' : a / 10 < 10 ^ w := by rw [Nat.pow_succ] at ha; omega
    have hb' : b / 10 < 10 ^ w := by rw [Nat.pow_succ] at hb; omega
    simp only [decimal, List.append_assoc, ih _ _ _ _ ha' hb', List.cons_append, List.nil_append, strLt, digit_toNat]
    have e : ((UInt8.ofNat (48 + a % 10)) == UInt8.ofNat (48 + b % 10)) = decide (a % 10 = b % 10) := by
      rw [Bool.eq_iff_iff]
      simp only [beq_iff_eq, decide_eq_true_eq]
      constructor
      · intro h
        have := congrArg UInt8.toNat h
        rw [digit_toNat, digit_toNat] at this
        omega
      · intro h; rw [h]
    rw [e, Bool.eq_iff_iff]
    cases strLt x y <;> simp only [Bool.or_eq_true, Bool.and_eq_true, decide_eq_true_eq, Bool.and_false, Bool.and_true, Bool.or_false, Bool.false_eq_true] <;> omega

theorem div_day (k r : Nat) (h : r < 86400) : (k * 86400 + r) / 86400 = k := by omega
theorem mod_day (k r : Nat) (h : r < 86400) : (k * 86400 + r) % 86400 = r := by omega
theorem day_secs (n r : Nat) : (((n : Int) - (208188 : Nat)) * 86400 + (r : Nat) + ((2440588 * 86400 : Nat) : Int)).toNat = (2232400 + n) * 86400 + r := by
  omega
theorem day_diff (n : Nat) (r : Int) : (((2232400 + n : Nat) : Int) - (2440588 : Nat)) * 86400 + r = ((n : Int) - (208188 : Nat)) * 86400 + r := by
  omega
theorem take2 (a : Nat) (x : Bytes) : (decimal 2 a ++ x).take 2 = decimal 2 a := List.take_left' (decimal_length 2 a)

/-- The printed text of an instant. -/
theorem isoString_instant (n hh mm ss : Nat) (h : Clock hh mm ss) :
    isoString (instant n hh mm ss) = text (start.plus n) hh mm ss := by
  obtain ⟨h1, h2, h3⟩ := h
  have hd : daysTo1970 = 208188 := rfl
  have he : epochDay = 2440588 := rfl
  have es : (instant n hh mm ss + ((epochDay * 86400 : Nat) : Int)).toNat = (2232400 + n) * 86400 + (hh * 3600 + mm * 60 + ss) := by
    unfold instant; rw [hd, he]; exact day_secs _ _
  have hr : hh * 3600 + mm * 60 + ss < 86400 := by omega
  have e1 : ((2232400 + n) * 86400 + (hh * 3600 + mm * 60 + ss)) / 86400 = 2232400 + n := div_day _ _ hr
  have e2 : ((2232400 + n) * 86400 + (hh * 3600 + mm * 60 + ss)) % 86400 = hh * 3600 + mm * 60 + ss := mod_day _ _ hr
  have ed := dateOf_plus n
  unfold isoString text
  simp only [es, e1, e2, dig2_eq, dig4_eq]
  rw [← ed]
  clear es e1 e2 ed hd he
  have e3 : (hh * 3600 + mm * 60 + ss) / 3600 = hh := by omega
  have e4 : (hh * 3600 + mm * 60 + ss) / 60 % 60 = mm := by omega
  have e5 : (hh * 3600 + mm * 60 + ss) % 60 = ss := by omega
  rw [e3, e4, e5]
  simp [dateOf]

/-- Every second from the year 1400 on is such an instant. -/
theorem instant_exists (t : Int) (h : instant 0 0 0 0 ≤ t) : ∃ n hh mm ss, Clock hh mm ss ∧ t = instant n hh mm ss := by
  have e0 : instant 0 0 0 0 = -17987443200 := by decide
  rw [e0] at h
  obtain ⟨s, hs⟩ := Int.eq_ofNat_of_zero_le (show 0 ≤ t + 17987443200 by omega)
  refine ⟨s / 86400, s % 86400 / 3600, s % 86400 / 60 % 60, s % 60, ⟨by omega, by omega, by omega⟩, ?_⟩
  have hd : daysTo1970 = 208188 := rfl
  unfold instant
  rw [hd]
  omega

theorem instant_lt {n hh mm ss n' hh' mm' ss' : Nat} (h : Clock hh mm ss) (h' : Clock hh' mm' ss') :
    instant n hh mm ss < instant n' hh' mm' ss' ↔
      n < n' ∨ n = n' ∧ (hh < hh' ∨ hh = hh' ∧ (mm < mm' ∨ mm = mm' ∧ ss < ss')) := by
  obtain ⟨h1, h2, h3⟩ := h
  obtain ⟨h1', h2', h3'⟩ := h'
  unfold instant
  omega

theorem plus_before (n n' : Nat) : Before (start.plus n) (start.plus n') ↔ n < n' := by
  have h := plus_spec n
  have h' := plus_spec n'
  rw [before_iff h.2 h'.2, h.1, h'.1]
  omega

theorem plus_inj (n n' : Nat) : start.plus n = start.plus n' ↔ n = n' := by
  constructor
  · intro e
    have h := plus_spec n
    have h' := plus_spec n'
    rw [e, h'.1] at h
    omega
  · rintro rfl; rfl

theorem day_lt (d : Date) (h : d.Valid) : d.day < 10 ^ 2 ∧ d.month < 10 ^ 2 := by
  have hm := valid_month h
  have : monthDays d.year d.month ≤ 31 := by
    rcases month_cases hm.1 hm.2 with e | e | e | e | e | e | e | e | e | e | e | e <;> rw [e] <;> simp only [monthDays] <;>
      first | omega | (split <;> omega)
  have := h.2
  omega

/-- The order of texts is the order of instants. -/
theorem text_lt (n hh mm ss n' hh' mm' ss' : Nat) (h : Clock hh mm ss) (h' : Clock hh' mm' ss')
    (hy : (start.plus n).year ≤ 9999) (hy' : (start.plus n').year ≤ 9999) :
    strLt (text (start.plus n) hh mm ss) (text (start.plus n') hh' mm' ss') = decide (instant n hh mm ss < instant n' hh' mm' ss') := by
  have hv := plus_spec n
  have hv' := plus_spec n'
  have hd := day_lt _ hv.2
  have hd' := day_lt _ hv'.2
  have hb := plus_before n n'
  have hi := plus_inj n n'
  have hl := instant_lt (n := n) (n' := n') h h'
  obtain ⟨h1, h2, h3⟩ := h
  obtain ⟨h1', h2', h3'⟩ := h'
  unfold text
  simp only [List.append_assoc]
  rw [strLt_decimal _ _ _ _ _ (by omega) (by omega), strLt_decimal _ _ _ _ _ hd.2 hd'.2, strLt_decimal _ _ _ _ _ hd.1 hd'.1]
  have e84 : ∀ x y : Bytes, strLt ([84] ++ x) ([84] ++ y) = strLt x y := by intro x y; simp [strLt]
  rw [e84, strLt_decimal _ _ _ _ _ (by omega) (by omega), strLt_decimal _ _ _ _ _ (by omega) (by omega)]
  have ess : strLt (decimal 2 ss) (decimal 2 ss') = decide (ss < ss') := by
    have := strLt_decimal 2 ss ss' [] [] (by omega) (by omega)
    simpa [strLt] using this
  rw [ess, Bool.eq_iff_iff]
  simp only [Bool.or_eq_true, Bool.and_eq_true, decide_eq_true_eq]
  rw [hl, ← hb, ← hi]
  generalize start.plus n = d at *
  generalize start.plus n' = d' at *
  obtain ⟨y, m, dd⟩ := d
  obtain ⟨y', m', dd'⟩ := d'
  unfold Before
  simp only [Date.mk.injEq]
  omega

/-- A decimal text of a date and time is read as its instant. -/
theorem fromIso_text (other : Bytes → Parsed) (n hh mm ss : Nat) (hy : (start.plus n).year ≤ 9999)
    (h1 : hh < 100) (h2 : mm < 100) (h3 : ss < 100) :
    fromIso other (text (start.plus n) hh mm ss) = .ok (instant n hh mm ss) := by
  have hv := plus_spec n
  have hd := day_lt _ hv.2
  have hmo := valid_month hv.2
  have hdi := (valid_iff _).1 hv.2
  have h1400 : 1400 ≤ (start.plus n).year := by
    rcases before_total start (start.plus n) with hb | hb | hb
    · rcases hb with hb | hb
      · exact Nat.le_of_lt hb
      · exact Nat.le_of_eq hb.1
    · rw [← hb]; decide
    · have := num_lt hv.2 start_valid hb
      rw [hv.1, num_start] at this
      omega
  generalize hdt : start.plus n = d at *
  have l4 := decimal_length 4 d.year
  have lm := decimal_length 2 d.month
  have ld := decimal_length 2 d.day
  have lh := decimal_length 2 hh
  have lmm := decimal_length 2 mm
  have t1 : (text d hh mm ss).take 4 = decimal 4 d.year := by
    unfold text; simp only [List.append_assoc]; rw [List.take_append_of_le_length (by omega), List.take_of_length_le (by omega)]
  have d4 : (text d hh mm ss).drop 4 = decimal 2 d.month ++ (decimal 2 d.day ++ ([84] ++ (decimal 2 hh ++ (decimal 2 mm ++ decimal 2 ss)))) := by
    unfold text; simp only [List.append_assoc]; rw [List.drop_left' (by omega)]
  have d6 : (text d hh mm ss).drop 6 = (decimal 2 d.day ++ ([84] ++ (decimal 2 hh ++ (decimal 2 mm ++ decimal 2 ss)))) := by
    have : (text d hh mm ss).drop 6 = ((text d hh mm ss).drop 4).drop 2 := by rw [List.drop_drop]
    rw [this, d4, List.drop_left' (by omega)]
  have d8 : (text d hh mm ss).drop 8 = ([84] ++ (decimal 2 hh ++ (decimal 2 mm ++ decimal 2 ss))) := by
    have : (text d hh mm ss).drop 8 = ((text d hh mm ss).drop 6).drop 2 := by rw [List.drop_drop]
    rw [this, d6, List.drop_left' (by omega)]
  have d9 : (text d hh mm ss).drop 9 = ((decimal 2 hh ++ (decimal 2 mm ++ decimal 2 ss))) := by
    have : (text d hh mm ss).drop 9 = ((text d hh mm ss).drop 8).drop 1 := by rw [List.drop_drop]
    rw [this, d8]; rfl
  have d11 : (text d hh mm ss).drop 11 = (decimal 2 mm ++ decimal 2 ss) := by
    have : (text d hh mm ss).drop 11 = ((text d hh mm ss).drop 9).drop 2 := by rw [List.drop_drop]
    rw [this, d9, List.drop_left' (by omega)]
  have d13 : (text d hh mm ss).drop 13 = decimal 2 ss := by
    have : (text d hh mm ss).drop 13 = ((text d hh mm ss).drop 11).drop 2 := by rw [List.drop_drop]
    rw [this, d11, List.drop_left' (by omega)]
  unfold fromIso
  rw [t1, d4, d6, d8, d9, d11, d13]
  rw [take2, take2, take2, take2]
  rw [number_decimal 4 d.year _ (by omega), number_decimal 2 d.day _ hd.1, number_decimal 2 d.month _ hd.2, number_decimal 2 hh _ (by omega),
    number_decimal 2 mm _ (by omega), number_decimal 2 ss _ (by omega)]
  simp only [Nat.zero_mul, Nat.zero_add]
  have e84 : (([84] ++ (decimal 2 hh ++ (decimal 2 mm ++ decimal 2 ss))).take 1 == [84]) = true := by simp
  rw [e84]
  simp only
  rw [if_neg (by omega)]
  have hnum : dayNumber d.year d.month d.day = 2232400 + n := hv.1
  rw [hnum]
  unfold instant
  have hd0 : daysTo1970 = 208188 := rfl
  have he : epochDay = 2440588 := rfl
  rw [hd0, he]
  exact congrArg Parsed.ok (day_diff _ _)

end Ndn.Cert
