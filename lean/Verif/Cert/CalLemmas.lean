import Verif.Cert.Spec
/-
Lemmas on the calendar: the formulas of the model follow the rule for the next day.
-/
namespace Ndn.Cert
open Spec

theorem isLeap_iff (y : Nat) : isLeap y = true ↔ Leap y := by
  unfold isLeap Leap
  simp only [Bool.and_eq_true, Bool.or_eq_true, beq_iff_eq, bne_iff_ne, ne_eq]
  omega

theorem leap_mod (y : Nat) : Leap y ↔ y % 4 = 0 ∧ (y % 100 ≠ 0 ∨ y % 400 = 0) := by
  unfold Leap; omega

/-- Month lengths agree for months 1 to 12. -/
theorem daysIn_eq (y m : Nat) (h1 : 1 ≤ m) (h2 : m ≤ 12) : daysIn y m = monthDays y m := by
  have h : m = 1 ∨ m = 2 ∨ m = 3 ∨ m = 4 ∨ m = 5 ∨ m = 6 ∨ m = 7 ∨ m = 8 ∨ m = 9 ∨ m = 10 ∨ m = 11 ∨ m = 12 := by omega
  rcases h with h | h | h | h | h | h | h | h | h | h | h | h <;> subst h <;>
    simp [daysIn, monthDays, isLeap_iff]

theorem valid_month {d : Date} (h : d.Valid) : 1 ≤ d.month ∧ d.month ≤ 12 := by
  obtain ⟨y, m, dd⟩ := d
  have h' : 1 ≤ monthDays y m := Nat.le_trans h.1 h.2
  constructor
  · rcases Nat.eq_zero_or_pos m with h0 | h0
    · subst h0; simp [monthDays] at h'
    · exact h0
  · show m ≤ 12
    rcases Nat.lt_or_ge 12 m with h0 | h0
    · obtain ⟨k, rfl⟩ := Nat.exists_eq_add_of_lt h0
      have : monthDays y (12 + k + 1) = 0 := by
        have e : 12 + k + 1 = k + 13 := by omega
        rw [e]; rfl
      omega
    · exact h0

theorem valid_iff (d : Date) : d.Valid ↔ 1 ≤ d.month ∧ d.month ≤ 12 ∧ 1 ≤ d.day ∧ d.day ≤ daysIn d.year d.month := by
  constructor
  · intro h
    have := valid_month h
    refine ⟨this.1, this.2, h.1, ?_⟩
    rw [daysIn_eq _ _ this.1 this.2]; exact h.2
  · rintro ⟨h1, h2, h3, h4⟩
    exact ⟨h3, by rw [← daysIn_eq _ _ h1 h2]; exact h4⟩

def num (d : Date) : Nat := dayNumber d.year d.month d.day

theorem month_cases {m : Nat} (h1 : 1 ≤ m) (h2 : m ≤ 12) :
    m = 1 ∨ m = 2 ∨ m = 3 ∨ m = 4 ∨ m = 5 ∨ m = 6 ∨ m = 7 ∨ m = 8 ∨ m = 9 ∨ m = 10 ∨ m = 11 ∨ m = 12 := by omega

/-- Days before the given (shifted) year. -/
def yearDays (y : Nat) : Nat := 365 * y + y / 4 - y / 100 + y / 400

theorem yearDays_step (y : Nat) :
    yearDays (y + 1) = yearDays y + 365 + (if (y + 1) % 4 = 0 ∧ ((y + 1) % 100 ≠ 0 ∨ (y + 1) % 400 = 0) then 1 else 0) := by
  have h4 : (y + 1) / 4 = y / 4 + (if (y + 1) % 4 = 0 then 1 else 0) := by split <;> omega
  have h100 : (y + 1) / 100 = y / 100 + (if (y + 1) % 100 = 0 then 1 else 0) := by split <;> omega
  have h400 : (y + 1) / 400 = y / 400 + (if (y + 1) % 400 = 0 then 1 else 0) := by split <;> omega
  have hle : y / 100 ≤ y / 4 := by omega
  have k1 : (y + 1) % 100 = 0 → (y + 1) % 4 = 0 := by omega
  have k2 : (y + 1) % 400 = 0 → (y + 1) % 100 = 0 := by omega
  unfold yearDays
  rw [h4, h100, h400]
  generalize y / 4 = a at *
  generalize y / 100 = b at *
  generalize y / 400 = c at *
  by_cases c1 : (y + 1) % 4 = 0
  · by_cases c2 : (y + 1) % 100 = 0
    · by_cases c3 : (y + 1) % 400 = 0
      · rw [if_pos c1, if_pos c2, if_pos c3, if_pos ⟨c1, .inr c3⟩]; omega
      · rw [if_pos c1, if_pos c2, if_neg c3, if_neg (by rintro ⟨_, h | h⟩; exact h c2; exact c3 h)]; omega
    · rw [if_pos c1, if_neg c2, if_neg (fun h => c2 (k2 h)), if_pos ⟨c1, .inl c2⟩]; omega
  · rw [if_neg c1, if_neg (fun h => c1 (k1 h)), if_neg (fun h => c1 (k1 (k2 h))), if_neg (fun h => c1 h.1)]; omega

theorem yearDays_lb (y : Nat) : 365 * y ≤ yearDays y := by
  unfold yearDays; omega

theorem dn_march (y m d : Nat) (h : 3 ≤ m) (h2 : m ≤ 12) :
    dayNumber y m d = d + (153 * (m - 3) + 2) / 5 + yearDays (y + 4800) - 32045 := by
  unfold dayNumber yearDays
  have : (14 - m) / 12 = 0 := by omega
  simp only [this, Nat.mul_zero, Nat.add_zero, Nat.sub_zero]
  generalize (153 * (m - 3) + 2) / 5 = q
  have : (y + 4800) / 100 ≤ (y + 4800) / 4 := by omega
  generalize (y + 4800) / 4 = a4 at *
  generalize (y + 4800) / 100 = a100 at *
  generalize (y + 4800) / 400 = a400
  omega

theorem dn_jan (y m d : Nat) (h : 1 ≤ m) (h2 : m ≤ 2) :
    dayNumber y m d = d + (153 * (m + 9) + 2) / 5 + yearDays (y + 4799) - 32045 := by
  unfold dayNumber yearDays
  have : (14 - m) / 12 = 1 := by omega
  have h' : m + 12 - 3 = m + 9 := by omega
  simp only [this, h', Nat.mul_one]
  have e : y + 4800 - 1 = y + 4799 := by omega
  rw [e]
  generalize (153 * (m + 9) + 2) / 5 = q
  have : (y + 4799) / 100 ≤ (y + 4799) / 4 := by omega
  generalize (y + 4799) / 4 = a4 at *
  generalize (y + 4799) / 100 = a100 at *
  generalize (y + 4799) / 400 = a400
  omega

/-- Length of the shifted year ending in February of the given year. -/
theorem yearDays_feb (y : Nat) : yearDays (y + 4800) = yearDays (y + 4799) + 365 + (if Leap y then 1 else 0) := by
  rw [yearDays_step]
  congr 1
  have : ((y + 4799 + 1) % 4 = 0 ∧ ((y + 4799 + 1) % 100 ≠ 0 ∨ (y + 4799 + 1) % 400 = 0)) ↔ Leap y := by
    rw [leap_mod]; omega
  by_cases h : Leap y
  · rw [if_pos h, if_pos (this.2 h)]
  · rw [if_neg h, if_neg (fun h' => h (this.1 h'))]

/-- The day after has the next number. -/
theorem num_next (d : Date) (h : d.Valid) : num d.next = num d + 1 ∧ d.next.Valid := by
  obtain ⟨y, m, dd⟩ := d
  obtain ⟨h1, h2⟩ := valid_month h
  obtain ⟨h3, h4⟩ := h
  simp only at h1 h2 h3 h4
  have hy0 := yearDays_lb (y + 4800)
  have hy1 := yearDays_lb (y + 4799)
  unfold Date.next
  by_cases hd : dd < monthDays y m
  · simp only [if_pos hd]
    refine ⟨?_, ⟨by simp, by simp; omega⟩⟩
    unfold num
    simp only
    by_cases hm : 3 ≤ m
    · rw [dn_march _ _ _ hm h2, dn_march _ _ _ hm h2]; omega
    · rw [dn_jan _ _ _ h1 (by omega), dn_jan _ _ _ h1 (by omega)]; omega
  · simp only [if_neg hd]
    have hdd : dd = monthDays y m := by omega
    subst hdd
    have e : y + 1 + 4799 = y + 4800 := by omega
    rcases month_cases h1 h2 with h | h | h | h | h | h | h | h | h | h | h | h <;> subst h
    case inr.inl =>
      simp only [num, monthDays, Date.Valid, Nat.reduceLT, if_true, Nat.reduceAdd]
      rw [dn_march _ _ _ (by omega) (by omega), dn_jan _ _ _ (by omega) (by omega), yearDays_feb]
      constructor
      · by_cases hl : Leap y
        · rw [if_pos hl, if_pos hl]; omega
        · rw [if_neg hl, if_neg hl]; omega
      · omega
    all_goals
      simp only [num, monthDays, Date.Valid, Nat.reduceLT, if_true, if_false, Nat.reduceAdd, Nat.lt_irrefl]
      constructor
      · first
        | rw [dn_march _ _ _ (by omega) (by omega), dn_march _ _ _ (by omega) (by omega)]; omega
        | rw [dn_jan _ _ _ (by omega) (by omega), dn_jan _ _ _ (by omega) (by omega)]; omega
        | rw [dn_jan _ _ _ (by omega) (by omega), dn_march _ _ _ (by omega) (by omega), e]; omega
      · constructor
        · omega
        · first | omega | (split <;> omega)

/-- The date of a day number. -/
def dateOf (n : Nat) : Date := ⟨(ymdOf n).1, (ymdOf n).2.1, (ymdOf n).2.2⟩

theorem yearDays_cent (b d : Nat) (h : d ≤ 99) : yearDays (100 * b + d) = 36524 * b + b / 4 + 365 * d + d / 4 := by
  unfold yearDays
  have h1 : (100 * b + d) / 4 = 25 * b + d / 4 := by omega
  have h2 : (100 * b + d) / 100 = b := by omega
  have h3 : (100 * b + d) / 400 = b / 4 := by omega
  rw [h1, h2, h3]; omega

theorem cent_split (n a b c : Nat) (hn : 2232400 ≤ n) (ha : a = n + 32044) (hb : b = (4 * a + 3) / 146097)
    (hc : c = a - 146097 * b / 4) :
    c ≤ 36524 ∧ (c = 36524 → b % 4 = 3) ∧ a = c + 36524 * b + b / 4 ∧ 61 ≤ b := by
  subst ha
  refine ⟨?_, ?_, ?_, ?_⟩ <;> omega

theorem year_split (c d e : Nat) (hc : c ≤ 36524) (hd : d = (4 * c + 3) / 1461) (he : e = c - 1461 * d / 4) :
    d ≤ 99 ∧ e ≤ 365 ∧ (e = 365 → d % 4 = 3) ∧ (e = 365 → d = 99 → c = 36524) ∧ c = e + 365 * d + d / 4 := by
  refine ⟨?_, ?_, ?_, ?_, ?_⟩ <;> omega

theorem feb_leap (b d : Nat) (hb : 61 ≤ b) (hd : d ≤ 99) (h : d % 4 = 3) (h' : d = 99 → b % 4 = 3) :
    Leap (100 * b + d - 4800 + 1) := by
  rw [leap_mod]
  by_cases h99 : d = 99
  · have := h' h99
    subst h99
    omega
  · have e2 : 100 * b + d - 4800 + 1 = 100 * (b - 48) + (d + 1) := by omega
    rw [e2]
    generalize b - 48 = k
    omega

/-- The month and the day from the day of the shifted year. -/
theorem month_split (y0 e m : Nat) (he : e ≤ 365) (hm : m = (5 * e + 2) / 153) (hl : e = 365 → Leap (y0 + 1)) :
    Date.Valid ⟨y0 + m / 10, m + 3 - 12 * (m / 10), e - (153 * m + 2) / 5 + 1⟩ ∧
    (∀ N, N = yearDays (y0 + 4800) → dayNumber (y0 + m / 10) (m + 3 - 12 * (m / 10)) (e - (153 * m + 2) / 5 + 1) = e + 1 + N - 32045) := by
  have hmm : m = 0 ∨ m = 1 ∨ m = 2 ∨ m = 3 ∨ m = 4 ∨ m = 5 ∨ m = 6 ∨ m = 7 ∨ m = 8 ∨ m = 9 ∨ m = 10 ∨ m = 11 := by omega
  have e1 : y0 + 1 + 4799 = y0 + 4800 := by omega
  rcases hmm with h | h | h | h | h | h | h | h | h | h | h | h <;> rw [h] at hm ⊢
  case inr.inr.inr.inr.inr.inr.inr.inr.inr.inr.inr =>
    simp only [Nat.reduceDiv, Nat.reduceMul, Nat.reduceAdd, Nat.reduceSub, Date.Valid, monthDays]
    constructor
    · constructor
      · omega
      · by_cases hl' : Leap (y0 + 1)
        · rw [if_pos hl']; omega
        · rw [if_neg hl']
          have : e ≠ 365 := fun h5 => hl' (hl h5)
          omega
    · intro N hN
      rw [dn_jan _ _ _ (by omega) (by omega), e1, ← hN]
      omega
  all_goals
    simp only [Nat.reduceDiv, Nat.reduceMul, Nat.reduceAdd, Nat.reduceSub, Date.Valid, monthDays, Nat.add_zero]
    constructor
    · omega
    · intro N hN
      first
      | rw [dn_march _ _ _ (by omega) (by omega), ← hN]; omega
      | rw [dn_jan _ _ _ (by omega) (by omega), e1, ← hN]; omega

/-- The calculation, with its intermediate values named. -/
theorem dateOf_calc (n a b c d e m : Nat) (hn : 2232400 ≤ n) (ha : a = n + 32044) (hb : b = (4 * a + 3) / 146097)
    (hc : c = a - 146097 * b / 4) (hd : d = (4 * c + 3) / 1461) (he : e = c - 1461 * d / 4) (hm : m = (5 * e + 2) / 153) :
    num ⟨100 * b + d - 4800 + m / 10, m + 3 - 12 * (m / 10), e - (153 * m + 2) / 5 + 1⟩ = n ∧
    Date.Valid ⟨100 * b + d - 4800 + m / 10, m + 3 - 12 * (m / 10), e - (153 * m + 2) / 5 + 1⟩ := by
  obtain ⟨c1, c2, c3, c4⟩ := cent_split n a b c hn ha hb hc
  obtain ⟨d1, d2, d3, d4, d5⟩ := year_split c d e c1 hd he
  obtain ⟨m1, m2⟩ := month_split (100 * b + d - 4800) e m d2 hm
    (fun h => feb_leap b d c4 d1 (d3 h) (fun h' => c2 (d4 h h')))
  refine ⟨?_, m1⟩
  unfold num
  rw [m2 _ rfl]
  have e0 : 100 * b + d - 4800 + 4800 = 100 * b + d := by omega
  rw [e0, yearDays_cent b d d1]
  clear hb hc hd he hm m1 m2 c2 d3 d4 hn
  omega

/-- `from_day_number` gives a date with that day number. -/
theorem dateOf_spec (n : Nat) (hn : 2232400 ≤ n) : num (dateOf n) = n ∧ (dateOf n).Valid :=
  dateOf_calc n _ _ _ _ _ _ hn rfl rfl rfl rfl rfl rfl

theorem yearDays_mono {x y : Nat} (h : x ≤ y) : yearDays x ≤ yearDays y := by
  obtain ⟨k, rfl⟩ := Nat.exists_eq_add_of_le h
  clear h
  induction k with
  | zero => exact Nat.le_refl _
  | succ k ih =>
    have := yearDays_step (x + k)
    rw [← Nat.add_assoc]
    omega

/-- Days of the year before the month. -/
def monthStart (l : Nat) : Nat → Nat
  | 1 => 306 | 2 => 337 | 3 => 365 + l | 4 => 396 + l | 5 => 426 + l | 6 => 457 + l | 7 => 487 + l
  | 8 => 518 + l | 9 => 549 + l | 10 => 579 + l | 11 => 610 + l | 12 => 640 + l | _ => 0

def leapDay (y : Nat) : Nat := if Leap y then 1 else 0

theorem num_eq (y m d : Nat) (h1 : 1 ≤ m) (h2 : m ≤ 12) :
    dayNumber y m d = d + monthStart (leapDay y) m + yearDays (y + 4799) - 32045 := by
  have hy := yearDays_lb (y + 4799)
  have hf := yearDays_feb y
  unfold leapDay
  rcases month_cases h1 h2 with h | h | h | h | h | h | h | h | h | h | h | h <;> subst h
  case inl => rw [dn_jan _ _ _ (by omega) (by omega)]; simp only [monthStart]
  case inr.inl => rw [dn_jan _ _ _ (by omega) (by omega)]; simp only [monthStart]
  all_goals
    rw [dn_march _ _ _ (by omega) (by omega), hf]
    simp only [monthStart]
    omega

theorem monthDays_eq (y m : Nat) (h1 : 1 ≤ m) (h2 : m ≤ 12) :
    monthStart (leapDay y) m + monthDays y m = if m = 12 then 671 + leapDay y else monthStart (leapDay y) (m + 1) := by
  rcases month_cases h1 h2 with h | h | h | h | h | h | h | h | h | h | h | h <;> subst h
  case inr.inl =>
    simp only [monthStart, monthDays, leapDay]
    split <;> simp
  all_goals simp [monthStart, monthDays] <;> omega

theorem monthStart_mono (l m m' : Nat) (hl : l ≤ 1) (h1 : 1 ≤ m) (h : m ≤ m') (h2 : m' ≤ 12) : monthStart l m ≤ monthStart l m' := by
  obtain ⟨k, rfl⟩ := Nat.exists_eq_add_of_le h
  clear h
  induction k with
  | zero => exact Nat.le_refl _
  | succ k ih =>
    refine Nat.le_trans (ih (by omega)) ?_
    have h3 : 1 ≤ m + k := by omega
    have h4 : m + k ≤ 12 := by omega
    have h5 : m + k ≠ 12 := by omega
    rw [← Nat.add_assoc]
    rcases month_cases h3 h4 with h | h | h | h | h | h | h | h | h | h | h | h <;> rw [h] <;> simp only [monthStart] <;> omega

/-- Earlier in the calendar. -/
def Before (d d' : Date) : Prop :=
  d.year < d'.year ∨ d.year = d'.year ∧ (d.month < d'.month ∨ d.month = d'.month ∧ d.day < d'.day)

theorem leapDay_le (y : Nat) : leapDay y ≤ 1 := by unfold leapDay; split <;> omega

theorem num_range (d : Date) (h : d.Valid) :
    num d + 32045 = d.day + monthStart (leapDay d.year) d.month + yearDays (d.year + 4799) ∧
    306 < d.day + monthStart (leapDay d.year) d.month ∧
    d.day + monthStart (leapDay d.year) d.month ≤ 671 + leapDay d.year := by
  obtain ⟨y, m, dd⟩ := d
  obtain ⟨h1, h2⟩ := valid_month h
  obtain ⟨h3, h4⟩ := h
  simp only at h1 h2 h3 h4
  have hy := yearDays_lb (y + 4799)
  have hl := leapDay_le y
  have hlow := monthStart_mono (leapDay y) 1 m hl (by omega) h1 h2
  have hk : monthStart (leapDay y) 1 = 306 := rfl
  have hd := monthDays_eq y m h1 h2
  unfold num
  simp only
  refine ⟨by rw [num_eq _ _ _ h1 h2]; omega, by omega, ?_⟩
  by_cases h12 : m = 12
  · rw [if_pos h12] at hd; omega
  · rw [if_neg h12] at hd
    have := monthStart_mono (leapDay y) (m + 1) 12 hl (by omega) (by omega) (by omega)
    have hk : monthStart (leapDay y) 12 = 640 + leapDay y := rfl
    omega

/-- Earlier dates have smaller day numbers. -/
theorem num_lt {d d' : Date} (h : d.Valid) (h' : d'.Valid) (hb : Before d d') : num d < num d' := by
  obtain ⟨a1, a2, a3⟩ := num_range d h
  obtain ⟨b1, b2, b3⟩ := num_range d' h'
  obtain ⟨m1, m2⟩ := valid_month h
  obtain ⟨m1', m2'⟩ := valid_month h'
  rcases hb with hy | ⟨hy, hm | ⟨hm, hd⟩⟩
  · have hf := yearDays_feb d.year
    have : yearDays (d.year + 4800) ≤ yearDays (d'.year + 4799) := yearDays_mono (by omega)
    have hk : leapDay d.year = if Leap d.year then 1 else 0 := rfl
    rw [← hk] at hf
    omega
  · have hd := monthDays_eq d.year d.month m1 m2
    rw [if_neg (by omega)] at hd
    have := monthStart_mono (leapDay d.year) (d.month + 1) d'.month (leapDay_le _) (by omega) (by omega) (by omega)
    rw [← hy] at b1
    have := h.2
    have := h'.1
    omega
  · rw [← hy, ← hm] at b1
    omega

theorem before_total (d d' : Date) : Before d d' ∨ d = d' ∨ Before d' d := by
  obtain ⟨y, m, dd⟩ := d
  obtain ⟨y', m', dd'⟩ := d'
  unfold Before
  simp only [Date.mk.injEq]
  omega

theorem num_inj {d d' : Date} (h : d.Valid) (h' : d'.Valid) (e : num d = num d') : d = d' := by
  rcases before_total d d' with hb | hb | hb
  · have := num_lt h h' hb; omega
  · exact hb
  · have := num_lt h' h hb; omega

theorem before_iff {d d' : Date} (h : d.Valid) (h' : d'.Valid) : Before d d' ↔ num d < num d' := by
  constructor
  · exact num_lt h h'
  · intro hn
    rcases before_total d d' with hb | hb | hb
    · exact hb
    · subst hb; omega
    · have := num_lt h' h hb; omega

theorem dateOf_num {d : Date} (h : d.Valid) (hn : 2232400 ≤ num d) : dateOf (num d) = d :=
  num_inj (dateOf_spec _ hn).2 h (dateOf_spec _ hn).1

theorem start_valid : start.Valid := ⟨by decide, by decide⟩
theorem num_start : num start = 2232400 := by decide +kernel

theorem plus_spec (n : Nat) : num (start.plus n) = 2232400 + n ∧ (start.plus n).Valid := by
  induction n with
  | zero => exact ⟨num_start, start_valid⟩
  | succ n ih =>
    have := num_next _ ih.2
    exact ⟨by show num (start.plus n).next = _; omega, this.2⟩

/-- The date with a day number, by counting days. -/
theorem dateOf_plus (n : Nat) : dateOf (2232400 + n) = start.plus n := by
  have h := plus_spec n
  have := dateOf_num h.2 (by omega)
  rwa [h.1] at this

end Ndn.Cert
