import Verif.Name.Spec
import Verif.Block.Lemmas
namespace Ndn.Name
open Spec Tlv

/-- Three-way comparison of numbers. -/
def cmpN (m n : Nat) : Int := if m < n then -1 else if n < m then 1 else 0

theorem memcmp_append (x y s t : Bytes) (h : x.length = y.length) :
    memcmp (x ++ s) (y ++ t) = if memcmp x y ≠ 0 then memcmp x y else memcmp s t := by
  induction x generalizing y with
  | nil =>
    have : y = [] := List.length_eq_zero_iff.mp (by simpa using h.symm)
    subst this; simp [memcmp]
  | cons a x ih =>
    cases y with
    | nil => simp at h
    | cons b y =>
      simp only [List.cons_append, memcmp]
      split
      · simp
      · split
        · simp
        · exact ih y (by simpa using h)

theorem memcmp_beNat (x y : Bytes) (h : x.length = y.length) : memcmp x y = cmpN (beNat x) (beNat y) := by
  induction x generalizing y with
  | nil =>
    have : y = [] := List.length_eq_zero_iff.mp (by simpa using h.symm)
    subst this; simp [memcmp, cmpN]
  | cons a x ih =>
    cases y with
    | nil => simp at h
    | cons b y =>
      have hl : x.length = y.length := by simpa using h
      simp only [memcmp]
      rw [beNat_cons, beNat_cons, ih y hl, hl]
      have h1 := beNat_lt x
      have h2 := beNat_lt y
      rw [hl] at h1
      generalize 256 ^ y.length = p at *
      unfold cmpN
      split
      · rename_i hab
        have : (a.toNat + 1) * p ≤ b.toNat * p := Nat.mul_le_mul_right _ hab
        rw [Nat.add_mul] at this
        rw [if_pos (by omega)]
      · split
        · rename_i hab
          have : (b.toNat + 1) * p ≤ a.toNat * p := Nat.mul_le_mul_right _ hab
          rw [Nat.add_mul] at this
          rw [if_neg (by omega), if_pos (by omega)]
        · have : a.toNat = b.toNat := by omega
          rw [this]
          (repeat' split) <;> omega

theorem lex_beNat (x y : Bytes) (h : x.length = y.length) :
    List.Lex (fun a b : UInt8 => a.toNat < b.toNat) x y ↔ beNat x < beNat y := by
  induction x generalizing y with
  | nil =>
    have : y = [] := List.length_eq_zero_iff.mp (by simpa using h.symm)
    subst this; simp
  | cons a x ih =>
    cases y with
    | nil => simp at h
    | cons b y =>
      have hl : x.length = y.length := by simpa using h
      rw [beNat_cons, beNat_cons, hl]
      have h1 := beNat_lt x
      have h2 := beNat_lt y
      rw [hl] at h1
      have ih' := ih y hl
      generalize 256 ^ y.length = p at *
      constructor
      · intro hx
        cases hx with
        | rel hab =>
          have : (a.toNat + 1) * p ≤ b.toNat * p := Nat.mul_le_mul_right _ hab
          rw [Nat.add_mul] at this
          omega
        | cons hx => have := ih'.mp hx; omega
      · intro hlt
        rcases Nat.lt_trichotomy a.toNat b.toNat with hab | hab | hab
        · exact .rel hab
        · have : a = b := UInt8.toNat_inj.mp hab
          subst this
          exact .cons (ih'.mpr (by omega))
        · have : (b.toNat + 1) * p ≤ a.toNat * p := Nat.mul_le_mul_right _ hab
          rw [Nat.add_mul] at this
          omega

theorem cmpN_eq_zero (m n : Nat) : cmpN m n = 0 ↔ m = n := by
  unfold cmpN; (repeat' split) <;> constructor <;> intro <;> omega
theorem cmpN_neg (m n : Nat) : cmpN m n < 0 ↔ m < n := by
  unfold cmpN; (repeat' split) <;> constructor <;> intro <;> omega
theorem cmpN_pos (m n : Nat) : 0 < cmpN m n ↔ n < m := by
  unfold cmpN; (repeat' split) <;> constructor <;> intro <;> omega

/-- VAR-NUMBERs written by the encoder compare like the numbers, and are prefix free. -/
theorem memcmp_var (m n : Nat) (s t : Bytes) (hm : m < 2 ^ 64) (hn : n < 2 ^ 64) :
    memcmp (writeVarNumber m ++ s) (writeVarNumber n ++ t) =
      if m = n then memcmp s t else cmpN m n := by
  have e2 : ∀ k, k ≤ 65535 → beNat (beBytes 2 k) = k :=
    fun k h => beNat_beBytes_of_lt (by omega)
  have e4 : ∀ k, k ≤ 4294967295 → beNat (beBytes 4 k) = k :=
    fun k h => beNat_beBytes_of_lt (by omega)
  have e8 : ∀ k, k < 2 ^ 64 → beNat (beBytes 8 k) = k :=
    fun k h => beNat_beBytes_of_lt (by omega)
  have o : ∀ k, k < 253 → (UInt8.ofNat k).toNat = k := fun k h => by
    rw [UInt8.toNat_ofNat']; omega
  have hz := cmpN_eq_zero m n
  have key : ∀ (k : Nat), beNat (beBytes k m) = m → beNat (beBytes k n) = n →
      memcmp (beBytes k m ++ s) (beBytes k n ++ t) = if m = n then memcmp s t else cmpN m n := by
    intro k h1 h2
    rw [memcmp_append _ _ _ _ (by simp), memcmp_beNat _ _ (by simp), h1, h2]
    by_cases hmn : m = n
    · rw [if_pos hmn, if_neg (fun h => h (hz.mpr hmn))]
    · rw [if_neg hmn, if_pos (fun h => hmn (hz.mp h))]
  unfold writeVarNumber
  by_cases m1 : m < 253
  · rw [if_pos m1]
    by_cases n1 : n < 253
    · rw [if_pos n1]
      simp only [List.cons_append, List.nil_append, memcmp, o m m1, o n n1]
      unfold cmpN
      (repeat' split) <;> first | rfl | omega
    · rw [if_neg n1, if_neg (show ¬ m = n by omega)]
      unfold cmpN
      rw [if_pos (show m < n by omega)]
      (repeat' split) <;> simp only [List.cons_append, List.nil_append, memcmp, o m m1, UInt8.reduceToNat] <;>
        rw [if_pos (by omega)]
  · rw [if_neg m1]
    by_cases m2 : m ≤ 65535
    · rw [if_pos m2]
      by_cases n1 : n < 253
      · rw [if_pos n1, if_neg (show ¬ m = n by omega)]
        unfold cmpN
        rw [if_neg (show ¬ m < n by omega), if_pos (show n < m by omega)]
        simp only [List.cons_append, List.nil_append, memcmp, o n n1, UInt8.reduceToNat]
        rw [if_neg (by omega), if_pos (by omega)]
      · rw [if_neg n1]
        by_cases n2 : n ≤ 65535
        · rw [if_pos n2]
          simp only [List.cons_append, memcmp, Nat.lt_irrefl, if_false]
          exact key 2 (e2 m m2) (e2 n n2)
        · rw [if_neg n2, if_neg (show ¬ m = n by omega)]
          unfold cmpN
          rw [if_pos (show m < n by omega)]
          split <;> simp [memcmp]
    · rw [if_neg m2]
      by_cases m3 : m ≤ 4294967295
      · rw [if_pos m3]
        by_cases n1 : n < 253
        · rw [if_pos n1, if_neg (show ¬ m = n by omega)]
          unfold cmpN
          rw [if_neg (show ¬ m < n by omega), if_pos (show n < m by omega)]
          simp only [List.cons_append, List.nil_append, memcmp, o n n1, UInt8.reduceToNat]
          rw [if_neg (by omega), if_pos (by omega)]
        · rw [if_neg n1]
          by_cases n2 : n ≤ 65535
          · rw [if_pos n2, if_neg (show ¬ m = n by omega)]
            unfold cmpN
            rw [if_neg (show ¬ m < n by omega), if_pos (show n < m by omega)]
            simp [memcmp]
          · rw [if_neg n2]
            by_cases n3 : n ≤ 4294967295
            · rw [if_pos n3]
              simp only [List.cons_append, memcmp, Nat.lt_irrefl, if_false]
              exact key 4 (e4 m m3) (e4 n n3)
            · rw [if_neg n3, if_neg (show ¬ m = n by omega)]
              unfold cmpN
              rw [if_pos (show m < n by omega)]
              simp [memcmp]
      · rw [if_neg m3]
        by_cases n1 : n < 253
        · rw [if_pos n1, if_neg (show ¬ m = n by omega)]
          unfold cmpN
          rw [if_neg (show ¬ m < n by omega), if_pos (show n < m by omega)]
          simp only [List.cons_append, List.nil_append, memcmp, o n n1, UInt8.reduceToNat]
          rw [if_neg (by omega), if_pos (by omega)]
        · rw [if_neg n1]
          by_cases n2 : n ≤ 65535
          · rw [if_pos n2, if_neg (show ¬ m = n by omega)]
            unfold cmpN
            rw [if_neg (show ¬ m < n by omega), if_pos (show n < m by omega)]
            simp [memcmp]
          · rw [if_neg n2]
            by_cases n3 : n ≤ 4294967295
            · rw [if_pos n3, if_neg (show ¬ m = n by omega)]
              unfold cmpN
              rw [if_neg (show ¬ m < n by omega), if_pos (show n < m by omega)]
              simp [memcmp]
            · rw [if_neg n3]
              simp only [List.cons_append, memcmp, Nat.lt_irrefl, if_false]
              exact key 8 (e8 m hm) (e8 n hn)

/-- The sign of a comparison result, against the specification. -/
def Agrees (r : Int) (a b : Comp) : Prop :=
  (r < 0 ↔ CompLt a b) ∧ (r = 0 ↔ a = b) ∧ (0 < r ↔ CompLt b a)

theorem CompLt_iff (a b : Comp) : CompLt a b ↔
    a.type < b.type ∨ (a.type = b.type ∧ (a.value.length < b.value.length ∨
      (a.value.length = b.value.length ∧ beNat a.value < beNat b.value))) := by
  unfold CompLt
  constructor
  · rintro (h | ⟨h1, h2 | ⟨h2, h3⟩⟩)
    · exact Or.inl h
    · exact Or.inr ⟨h1, Or.inl h2⟩
    · exact Or.inr ⟨h1, Or.inr ⟨h2, (lex_beNat _ _ h2).mp h3⟩⟩
  · rintro (h | ⟨h1, h2 | ⟨h2, h3⟩⟩)
    · exact Or.inl h
    · exact Or.inr ⟨h1, Or.inl h2⟩
    · exact Or.inr ⟨h1, Or.inr ⟨h2, (lex_beNat _ _ h2).mpr h3⟩⟩

theorem Comp_eq_iff (a b : Comp) : a = b ↔
    a.type = b.type ∧ a.value.length = b.value.length ∧ beNat a.value = beNat b.value := by
  constructor
  · rintro rfl; exact ⟨rfl, rfl, rfl⟩
  · rintro ⟨h1, h2, h3⟩
    have := beNat_inj h2 h3
    cases a; cases b; simp_all

/-- Comparison as one nested three-way comparison. -/
def cmpSpec (a b : Comp) : Int :=
  if a.type ≠ b.type then cmpN a.type b.type
  else if a.value.length ≠ b.value.length then cmpN a.value.length b.value.length
  else cmpN (beNat a.value) (beNat b.value)

theorem cmpSpec_agrees (a b : Comp) : Agrees (cmpSpec a b) a b := by
  unfold Agrees
  rw [CompLt_iff, CompLt_iff, Comp_eq_iff]
  unfold cmpSpec
  have p := cmpN_pos; have q := cmpN_neg; have r := cmpN_eq_zero
  split
  · rename_i h
    rw [p, q, r]; refine ⟨?_, ?_, ?_⟩ <;> omega
  · split
    · rename_i h h'
      rw [p, q, r]; refine ⟨?_, ?_, ?_⟩ <;> omega
    · rename_i h h'
      rw [p, q, r]; refine ⟨?_, ?_, ?_⟩ <;> omega

/-- Results with the same sign agree with the same order. -/
theorem Agrees.of_sign {r r' : Int} {a b : Comp} (h : Agrees r a b) (h1 : r' < 0 ↔ r < 0)
    (h2 : 0 < r' ↔ 0 < r) : Agrees r' a b := by
  unfold Agrees at *
  obtain ⟨x, y, z⟩ := h
  refine ⟨h1.trans x, ?_, h2.trans z⟩
  rw [← y]; omega

theorem memcmp_wire (a b : Comp) (ha : a.type < 2 ^ 64) (hb : b.type < 2 ^ 64)
    (la : a.value.length < 2 ^ 64) (lb : b.value.length < 2 ^ 64) :
    memcmp (Block.Spec.tlv a.type a.value) (Block.Spec.tlv b.type b.value) = cmpSpec a b := by
  unfold Block.Spec.tlv
  rw [List.append_assoc, List.append_assoc, memcmp_var _ _ _ _ ha hb, memcmp_var _ _ _ _ la lb]
  unfold cmpSpec
  by_cases h : a.type = b.type
  · by_cases h2 : a.value.length = b.value.length
    · simp only [h, h2, if_true, ne_eq, not_true_eq_false, if_false]
      exact memcmp_beNat _ _ h2
    · simp only [h, h2, if_true, ne_eq, not_true_eq_false, not_false_eq_true, if_false]
  · simp only [h, if_true, ne_eq, not_false_eq_true, if_false]

theorem toInt_small {x : Int} (h1 : -(2 ^ 31) < x) (h2 : x < 2 ^ 31) : toInt x = x := by
  unfold toInt
  rw [Int.bmod_eq_of_le] <;> omega

theorem compare_agrees (a b : WComp) (ca : Canonical a) (cb : Canonical b) (sa : Small a) (sb : Small b) :
    Agrees (a.compare b) a.comp b.comp := by
  obtain ⟨ta, la⟩ := sa
  obtain ⟨tb, lb⟩ := sb
  unfold WComp.compare
  have base : Agrees
      (let cmpType := toInt ((a.comp.type : Int) - b.comp.type)
      if cmpType ≠ 0 then cmpType
      else
        let cmpSize := toInt ((a.comp.value.length : Int) - b.comp.value.length)
        if cmpSize ≠ 0 then cmpSize
        else if a.comp.value.length = 0 then 0
        else memcmp a.comp.value b.comp.value) a.comp b.comp := by
    simp only
    rw [toInt_small (by omega) (by omega), toInt_small (by omega) (by omega)]
    have p := cmpN_pos; have q := cmpN_neg
    have ag := cmpSpec_agrees a.comp b.comp
    unfold cmpSpec at ag
    by_cases h : a.comp.type = b.comp.type
    · have h' : (a.comp.type : Int) - b.comp.type = 0 := by omega
      by_cases h2 : a.comp.value.length = b.comp.value.length
      · have h2' : (a.comp.value.length : Int) - b.comp.value.length = 0 := by omega
        simp only [h, h2, ne_eq, not_true_eq_false, if_false] at ag
        simp only [h', h2', ne_eq, not_true_eq_false, if_false]
        rw [memcmp_beNat _ _ h2]
        split
        · rename_i h3
          have e1 : a.comp.value = [] := List.length_eq_zero_iff.mp h3
          have e2 : b.comp.value = [] := List.length_eq_zero_iff.mp (by omega)
          rw [e1, e2] at ag
          exact ag
        · exact ag
      · have h2' : ¬ (a.comp.value.length : Int) - b.comp.value.length = 0 := by omega
        simp only [h, h2, ne_eq, not_true_eq_false, if_false, not_false_eq_true, if_true] at ag
        simp only [h', h2', ne_eq, not_true_eq_false, if_false, not_false_eq_true, if_true]
        refine ag.of_sign ?_ ?_
        · rw [q]; omega
        · rw [p]; omega
    · have h' : ¬ (a.comp.type : Int) - b.comp.type = 0 := by omega
      simp only [h, ne_eq, if_false, not_false_eq_true, if_true] at ag
      simp only [h', ne_eq, if_false, not_false_eq_true, if_true]
      refine ag.of_sign ?_ ?_
      · rw [q]; omega
      · rw [p]; omega
  cases hwa : a.wire with
  | none => exact base
  | some w =>
    cases hwb : b.wire with
    | none => exact base
    | some w' =>
      simp only
      rw [ca w hwa, cb w' hwb, memcmp_wire _ _ (by omega) (by omega) (by omega) (by omega)]
      exact cmpSpec_agrees _ _

/-! ### The specified order is a strict total order -/

theorem CompLt_irrefl (a : Comp) : ¬ CompLt a a := by
  rw [CompLt_iff]; omega

theorem CompLt_trans {a b c : Comp} (h1 : CompLt a b) (h2 : CompLt b c) : CompLt a c := by
  rw [CompLt_iff] at *
  omega

theorem CompLt_total (a b : Comp) : CompLt a b ∨ a = b ∨ CompLt b a := by
  rw [CompLt_iff, CompLt_iff, Comp_eq_iff]
  omega

theorem CompLt_asymm {a b : Comp} (h : CompLt a b) : ¬ CompLt b a :=
  fun h' => CompLt_irrefl a (CompLt_trans h h')

theorem NameLt_cons {a b : Comp} {x y : List Comp} :
    NameLt (a :: x) (b :: y) ↔ CompLt a b ∨ (a = b ∧ NameLt x y) := by
  constructor
  · intro h
    cases h with
    | rel h => exact Or.inl h
    | cons h => exact Or.inr ⟨rfl, h⟩
  · rintro (h | ⟨rfl, h⟩)
    · exact .rel h
    · exact .cons h

@[simp] theorem NameLt_nil_right (x : List Comp) : ¬ NameLt x [] := by intro h; cases h
@[simp] theorem NameLt_nil_cons (b : Comp) (y : List Comp) : NameLt [] (b :: y) := .nil

theorem NameLt_irrefl (x : List Comp) : ¬ NameLt x x := by
  induction x with
  | nil => simp
  | cons a x ih =>
    rw [NameLt_cons]
    rintro (h | ⟨_, h⟩)
    · exact CompLt_irrefl a h
    · exact ih h

theorem NameLt_trans {x y z : List Comp} (h1 : NameLt x y) (h2 : NameLt y z) : NameLt x z := by
  induction x generalizing y z with
  | nil =>
    cases z with
    | nil => exact absurd h2 (by simp)
    | cons c z => simp
  | cons a x ih =>
    cases y with
    | nil => exact absurd h1 (by simp)
    | cons b y =>
      cases z with
      | nil => exact absurd h2 (by simp)
      | cons c z =>
        rw [NameLt_cons] at *
        rcases h1 with h1 | ⟨rfl, h1⟩
        · rcases h2 with h2 | ⟨rfl, h2⟩
          · exact Or.inl (CompLt_trans h1 h2)
          · exact Or.inl h1
        · rcases h2 with h2 | ⟨rfl, h2⟩
          · exact Or.inl h2
          · exact Or.inr ⟨rfl, ih h1 h2⟩

theorem NameLt_total (x y : List Comp) : NameLt x y ∨ x = y ∨ NameLt y x := by
  induction x generalizing y with
  | nil => cases y <;> simp
  | cons a x ih =>
    cases y with
    | nil => simp
    | cons b y =>
      rw [NameLt_cons, NameLt_cons]
      rcases CompLt_total a b with h | rfl | h
      · exact Or.inl (Or.inl h)
      · rcases ih y with h | rfl | h
        · exact Or.inl (Or.inr ⟨rfl, h⟩)
        · exact Or.inr (Or.inl rfl)
        · exact Or.inr (Or.inr (Or.inr ⟨rfl, h⟩))
      · exact Or.inr (Or.inr (Or.inl h))

/-! ### Names -/

def AgreesN (r : Int) (a b : List Comp) : Prop :=
  (r < 0 ↔ NameLt a b) ∧ (r = 0 ↔ a = b) ∧ (0 < r ↔ NameLt b a)

/-- The components of a name (types and values only). -/
def bare (n : List WComp) : List Comp := n.map (·.comp)

/-- The loop of `Name::compare` on aligned lists, then the difference of sizes. -/
def cmpLists : List WComp → List WComp → Int
  | a :: as, b :: bs => if a.compare b ≠ 0 then a.compare b else cmpLists as bs
  | as, bs => (as.length : Int) - bs.length

theorem cmpLists_agrees (a b : List WComp)
    (ca : ∀ c ∈ a, Canonical c ∧ Small c) (cb : ∀ c ∈ b, Canonical c ∧ Small c) :
    AgreesN (cmpLists a b) (bare a) (bare b) := by
  induction a generalizing b with
  | nil =>
    cases b with
    | nil => simp [cmpLists, AgreesN, bare]
    | cons y b => simp [cmpLists, AgreesN, bare]; omega
  | cons x a ih =>
    cases b with
    | nil => simp [cmpLists, AgreesN, bare]; omega
    | cons y b =>
      have hx := ca x (by simp); have hy := cb y (by simp)
      have ag := compare_agrees x y hx.1 hy.1 hx.2 hy.2
      have ih' := ih b (fun c h => ca c (by simp [h])) (fun c h => cb c (by simp [h]))
      unfold AgreesN Agrees at *
      simp only [cmpLists, bare, List.map_cons, NameLt_cons, List.cons.injEq] at *
      obtain ⟨p, q, r⟩ := ag
      obtain ⟨p', q', r'⟩ := ih'
      by_cases hz : x.compare y = 0
      · have he := q.mp hz
        rw [if_neg (by simpa using hz)]
        have n1 : ¬ CompLt x.comp y.comp := by rw [he]; exact CompLt_irrefl _
        have n2 : ¬ CompLt y.comp x.comp := by rw [he]; exact CompLt_irrefl _
        rw [p', q', r']
        simp [n1, n2, he, CompLt_irrefl]
      · rw [if_pos hz]
        have hne : ¬ x.comp = y.comp := fun h => hz (q.mpr h)
        have hne' : ¬ y.comp = x.comp := fun h => hne h.symm
        simp [hne, hne', p, r, hz]

theorem compareLoop_spec (a b : List WComp) (k i j : Nat) (hi : i + k ≤ a.length) (hj : j + k ≤ b.length) :
    compareLoop a b k i j 0 =
      some (cmpLists ((a.drop i).take k) ((b.drop j).take k)) := by
  induction k generalizing i j with
  | zero => simp [compareLoop, cmpLists]
  | succ k ih =>
    have h1 : i < a.length := by omega
    have h2 : j < b.length := by omega
    rw [compareLoop, List.getElem?_eq_getElem h1, List.getElem?_eq_getElem h2,
      List.drop_eq_getElem_cons h1, List.drop_eq_getElem_cons h2]
    simp only [List.take_succ_cons, cmpLists]
    split
    · rfl
    · exact ih (i + 1) (j + 1) (by omega) (by omega)

theorem cmpLists_take (a b : List WComp) (k : Nat) (hk : k = min a.length b.length) :
    cmpLists a b = if cmpLists (a.take k) (b.take k) ≠ 0 then cmpLists (a.take k) (b.take k)
      else (a.length : Int) - b.length := by
  subst hk
  induction a generalizing b with
  | nil => simp [cmpLists]
  | cons x a ih =>
    cases b with
    | nil => simp [cmpLists]
    | cons y b =>
      have : min (x :: a).length (y :: b).length = min a.length b.length + 1 := by
        simp only [List.length_cons]; omega
      rw [this]
      simp only [List.take_succ_cons, cmpLists]
      split
      · rfl
      · rw [ih b]
        simp only [List.length_cons]
        split
        · rfl
        · omega

theorem compareSub_spec (a b : List WComp) (i n j m : Nat) (hi : i ≤ a.length) (hj : j ≤ b.length)
    (la : a.length < 2 ^ 31) (lb : b.length < 2 ^ 31) :
    compareSub a i n b j m = some (cmpLists ((a.drop i).take n) ((b.drop j).take m)) := by
  unfold compareSub
  simp only
  rw [show (a.length + 2 ^ 64 - i) % 2 ^ 64 = a.length - i by omega,
    show (b.length + 2 ^ 64 - j) % 2 ^ 64 = b.length - j by omega]
  rw [compareLoop_spec _ _ _ _ _ (by omega) (by omega)]
  simp only
  rw [cmpLists_take ((a.drop i).take n) ((b.drop j).take m) (min (min n (a.length - i)) (min m (b.length - j)))
    (by simp)]
  have e1 : ((a.drop i).take n).length = min n (a.length - i) := by simp
  have e2 : ((b.drop j).take m).length = min m (b.length - j) := by simp
  rw [e1, e2, List.take_take, List.take_take, toInt_small (by omega) (by omega)]
  rw [show min (min (min n (a.length - i)) (min m (b.length - j))) n =
      min (min n (a.length - i)) (min m (b.length - j)) by omega,
    show min (min (min n (a.length - i)) (min m (b.length - j))) m =
      min (min n (a.length - i)) (min m (b.length - j)) by omega]
  split <;> rfl

theorem range_all_getElem (a b : List WComp) (h : a.length ≤ b.length) :
    (List.range a.length).all (agreeAt a b) = true ↔
      bare a = (bare b).take a.length := by
  rw [List.all_eq_true]
  constructor
  · intro hall
    apply List.ext_getElem
    · simp [bare]; omega
    · intro i h1 h2
      have hi : i < a.length := by simpa [bare] using h1
      have := hall i (by simpa using hi)
      rw [agreeAt, List.getElem?_eq_getElem hi, List.getElem?_eq_getElem (by omega : i < b.length)] at this
      simp only [WComp.eq, Bool.and_eq_true, beq_iff_eq] at this
      simp only [bare, List.getElem_map, List.getElem_take]
      cases ha : a[i].comp; cases hb : b[i].comp
      simp_all
  · intro he i hi
    have hi : i < a.length := by simpa using hi
    rw [agreeAt, List.getElem?_eq_getElem hi, List.getElem?_eq_getElem (by omega : i < b.length)]
    have h1 : (bare a)[i]? = ((bare b).take a.length)[i]? := by rw [he]
    rw [List.getElem?_take, if_pos hi] at h1
    simp only [bare, List.getElem?_map] at h1
    rw [List.getElem?_eq_getElem hi, List.getElem?_eq_getElem (by omega : i < b.length)] at h1
    simp at h1
    simp [WComp.eq, h1]

/-! ### Successors -/

theorem incRev_spec (v : Bytes) :
    (incRev v).2.length = v.length ∧
    (if (incRev v).1 then beNat v.reverse + 1 = 256 ^ v.length ∧ beNat (incRev v).2.reverse = 0
      else beNat (incRev v).2.reverse = beNat v.reverse + 1) := by
  induction v with
  | nil => simp [incRev, beNat]
  | cons b bs ih =>
    have hb := b.toNat_lt
    have one : ∀ x : UInt8, beNat [x] = x.toNat := fun x => by simp [beNat]
    simp only [incRev]
    by_cases hz : UInt8.ofNat ((b.toNat + 1) % 256) = 0
    · rw [if_pos hz]
      have hbv : b.toNat = 255 := by
        have := congrArg UInt8.toNat hz
        rw [UInt8.toNat_ofNat'] at this
        simp at this
        omega
      obtain ⟨h1, h2⟩ := ih
      refine ⟨by simp [h1], ?_⟩
      rw [hz]
      simp only [List.reverse_cons, beNat_append, one, List.length_cons, List.length_nil, Nat.zero_add,
        Nat.pow_one, hbv, show (0 : UInt8).toNat = 0 from rfl]
      split at h2
      · rename_i ho
        rw [if_pos ho]
        rw [Nat.pow_succ]
        omega
      · rename_i ho
        rw [if_neg ho]
        omega
    · rw [if_neg hz]
      have hbv : b.toNat + 1 < 256 := by
        apply Decidable.byContradiction
        intro hn
        have : b.toNat = 255 := by omega
        apply hz
        rw [this]
        rfl
      refine ⟨by simp, ?_⟩
      simp only [Bool.false_eq_true, if_false, List.reverse_cons, beNat_append, one,
        UInt8.toNat_ofNat', List.length_singleton]
      rw [Nat.mod_eq_of_lt (a := b.toNat + 1) (by omega), Nat.mod_eq_of_lt (by omega)]
      omega

theorem successorImpl_spec (v : Bytes) :
    (if (successorImpl v).1 then beNat v + 1 = 256 ^ v.length ∧
        (successorImpl v).2.length = v.length + 1 ∧ beNat (successorImpl v).2 = 0
      else (successorImpl v).2.length = v.length ∧ beNat (successorImpl v).2 = beNat v + 1) := by
  unfold successorImpl
  simp only
  obtain ⟨h1, h2⟩ := incRev_spec v.reverse
  simp only [List.reverse_reverse, List.length_reverse] at h1 h2
  split at h2
  · rename_i ho
    rw [if_pos ho, if_pos ho]
    refine ⟨h2.1, by simp [h1], ?_⟩
    rw [beNat_append, h2.2]; simp [beNat]
  · rename_i ho
    rw [if_neg ho, if_neg ho]
    exact ⟨by simp [h1], h2⟩

theorem kindOf_sha (t : Nat) : (∃ p, kindOf t = .sha256 p) ↔ t = 1 ∨ t = 2 := by
  unfold kindOf
  constructor
  · rintro ⟨p, h⟩
    repeat' (split at h)
    all_goals first | omega | simp at h
  · rintro (rfl | rfl)
    · exact ⟨_, rfl⟩
    · exact ⟨_, rfl⟩

theorem ensureValid_iff (c : Comp) : ensureValid c = true ↔ ValidComp c := by
  unfold ensureValid ValidComp
  have hk := kindOf_sha c.type
  by_cases h0 : c.type < 1
  · simp [h0]
    omega
  · by_cases h1 : c.type > 65535
    · simp [h1]; omega
    · simp only [h0, h1, decide_false, Bool.or_false, Bool.false_eq_true, if_false]
      have h2 : 1 ≤ c.type := by omega
      have h3 : c.type ≤ 65535 := by omega
      simp only [h2, h3, true_and]
      cases hkk : kindOf c.type with
      | sha256 p => have := hk.mp ⟨p, hkk⟩; simp [this]
      | base => have : ¬ (c.type = 1 ∨ c.type = 2) := fun h => by
                  obtain ⟨p, hp⟩ := hk.mpr h; rw [hkk] at hp; simp at hp
                simp [this]
      | generic => have : ¬ (c.type = 1 ∨ c.type = 2) := fun h => by
                    obtain ⟨p, hp⟩ := hk.mpr h; rw [hkk] at hp; simp at hp
                   simp [this]
      | decimal q => have : ¬ (c.type = 1 ∨ c.type = 2) := fun h => by
                      obtain ⟨p, hp⟩ := hk.mpr h; rw [hkk] at hp; simp at hp
                     simp [this]

theorem minValue_one_two : minValue 2 = List.replicate 32 0 ∧ minValue 3 = [] := by decide

theorem beNat_replicate_zero (n : Nat) : beNat (List.replicate n 0) = 0 := by
  induction n with
  | zero => rfl
  | succ n ih => rw [List.replicate_succ, beNat_cons, ih]; simp

/-- The three forms of a successor. -/
theorem successor_cases (c : Comp) (hv : ValidComp c) :
    ((c.successor.type = c.type ∧ c.successor.value.length = c.value.length ∧
      beNat c.successor.value = beNat c.value + 1)) ∨
    (¬ (c.type = 1 ∨ c.type = 2) ∧ beNat c.value + 1 = 256 ^ c.value.length ∧
      c.successor.type = c.type ∧ c.successor.value.length = c.value.length + 1 ∧
      beNat c.successor.value = 0) ∨
    ((c.type = 1 ∨ c.type = 2) ∧ beNat c.value + 1 = 256 ^ c.value.length ∧
      c.successor = ⟨c.type + 1, minValue (c.type + 1)⟩) := by
  have hk := kindOf_sha c.type
  have hs := successorImpl_spec c.value
  unfold Comp.successor
  simp only
  have plain : ¬ (c.type = 1 ∨ c.type = 2) →
      (((⟨c.type, (successorImpl c.value).2⟩ : Comp).type = c.type ∧
        (⟨c.type, (successorImpl c.value).2⟩ : Comp).value.length = c.value.length ∧
      beNat (⟨c.type, (successorImpl c.value).2⟩ : Comp).value = beNat c.value + 1)) ∨
      (¬ (c.type = 1 ∨ c.type = 2) ∧ beNat c.value + 1 = 256 ^ c.value.length ∧
      (⟨c.type, (successorImpl c.value).2⟩ : Comp).type = c.type ∧
      (⟨c.type, (successorImpl c.value).2⟩ : Comp).value.length = c.value.length + 1 ∧
      beNat (⟨c.type, (successorImpl c.value).2⟩ : Comp).value = 0) := by
    intro hn
    split at hs
    · exact Or.inr ⟨hn, hs.1, rfl, hs.2.1, hs.2.2⟩
    · exact Or.inl ⟨rfl, hs.1, hs.2⟩
  cases hkk : kindOf c.type with
  | sha256 p =>
    have h12 := hk.mp ⟨p, hkk⟩
    simp only
    split
    · rename_i ho
      rw [if_pos ho] at hs
      exact Or.inr (Or.inr ⟨h12, hs.1, rfl⟩)
    · rename_i ho
      rw [if_neg ho] at hs
      exact Or.inl ⟨rfl, hs.1, hs.2⟩
  | base =>
    have : ¬ (c.type = 1 ∨ c.type = 2) := fun h => by
      obtain ⟨p, hp⟩ := hk.mpr h; rw [hkk] at hp; simp at hp
    rcases plain this with h | h
    · exact Or.inl h
    · exact Or.inr (Or.inl h)
  | generic =>
    have : ¬ (c.type = 1 ∨ c.type = 2) := fun h => by
      obtain ⟨p, hp⟩ := hk.mpr h; rw [hkk] at hp; simp at hp
    rcases plain this with h | h
    · exact Or.inl h
    · exact Or.inr (Or.inl h)
  | decimal q =>
    have : ¬ (c.type = 1 ∨ c.type = 2) := fun h => by
      obtain ⟨p, hp⟩ := hk.mpr h; rw [hkk] at hp; simp at hp
    rcases plain this with h | h
    · exact Or.inl h
    · exact Or.inr (Or.inl h)

theorem successor_valid (c : Comp) (hv : ValidComp c) : ValidComp c.successor := by
  have hv' := hv
  obtain ⟨h1, h2, h3⟩ := hv
  rcases successor_cases c hv' with ⟨a, b, _⟩ | ⟨hn, _, a, b, _⟩ | ⟨h12, _, he⟩
  · exact ⟨by omega, by omega, fun h => by rw [b]; exact h3 (by omega)⟩
  · exact ⟨by omega, by omega, fun h => by omega⟩
  · rw [he]
    rcases h12 with h | h <;> rw [h]
    · exact ⟨by simp, by simp, fun _ => by rw [minValue_one_two.1]; simp⟩
    · exact ⟨by simp, by simp, fun h => by simp at h⟩

theorem successor_lt (c : Comp) (hv : ValidComp c) : CompLt c c.successor := by
  rw [CompLt_iff]
  rcases successor_cases c hv with ⟨a, b, d⟩ | ⟨hn, _, a, b, _⟩ | ⟨h12, _, he⟩
  · omega
  · omega
  · rw [he]; left; simp

theorem successor_least (c d : Comp) (hc : ValidComp c) (hd : ValidComp d) (h : CompLt c d) :
    d = c.successor ∨ CompLt c.successor d := by
  rw [CompLt_iff] at h
  rw [CompLt_iff, Comp_eq_iff]
  have hdlt := beNat_lt d.value
  rcases successor_cases c hc with ⟨a, b, e⟩ | ⟨hn, hmax, a, b, e⟩ | ⟨h12, hmax, he⟩
  · omega
  · rcases h with h | ⟨h1, h2 | ⟨h2, h3⟩⟩
    · omega
    · omega
    · rw [← h2] at hdlt; omega
  · rw [he]
    simp only
    have hlen : c.type = d.type → c.value.length = d.value.length := by
      intro h
      rw [hc.2.2 h12, hd.2.2 (by omega)]
    rcases h with h | ⟨h1, h2 | ⟨h2, h3⟩⟩
    · -- greater type
      by_cases ht : c.type + 1 < d.type
      · exact Or.inr (Or.inl ht)
      · have hte : d.type = c.type + 1 := by omega
        rcases h12 with h' | h'
        · rw [h'] at hte ⊢
          have hl := hd.2.2 (Or.inr hte)
          rw [minValue_one_two.1, beNat_replicate_zero]
          simp only [List.length_replicate]
          omega
        · rw [h'] at hte ⊢
          rw [minValue_one_two.2]
          have : beNat ([] : Bytes) = 0 := rfl
          rw [this]
          simp only [List.length_nil]
          by_cases hl : d.value.length = 0
          · have := List.length_eq_zero_iff.mp hl
            rw [this]; left; exact ⟨hte, rfl, rfl⟩
          · right; right; exact ⟨hte.symm, Or.inl (by omega)⟩
    · have := hlen h1; omega
    · rw [← h2] at hdlt; omega

theorem successor_snoc (p : List Comp) (c : Comp) : successor (p ++ [c]) = p ++ [c.successor] := by
  unfold successor; simp

theorem prefix_range (p : List Comp) (c : Comp) (b : List Comp) (hc : ValidComp c) (hb : ValidName b) :
    (p ++ [c]) <+: b ↔ ¬ NameLt b (p ++ [c]) ∧ NameLt b (p ++ [c.successor]) := by
  induction p generalizing b with
  | nil =>
    cases b with
    | nil => simp
    | cons d t =>
      have hd := hb d (by simp)
      simp only [List.nil_append, NameLt_cons, NameLt_nil_right, and_false, or_false]
      rw [List.cons_prefix_cons]
      constructor
      · rintro ⟨rfl, _⟩
        exact ⟨CompLt_irrefl c, successor_lt c hc⟩
      · rintro ⟨h1, h2⟩
        refine ⟨?_, List.nil_prefix⟩
        rcases CompLt_total c d with h | h | h
        · rcases successor_least c d hc hd h with h' | h'
          · rw [h'] at h2; exact absurd h2 (CompLt_irrefl _)
          · exact absurd h2 (CompLt_asymm h')
        · exact h
        · exact absurd h h1
  | cons a p ih =>
    cases b with
    | nil => simp
    | cons d t =>
      simp only [List.cons_append, NameLt_cons, List.cons_prefix_cons]
      have ih' := ih t (fun c h => hb c (by simp [h]))
      constructor
      · rintro ⟨rfl, h⟩
        have := ih'.mp h
        exact ⟨fun h' => h'.elim (CompLt_irrefl _) (fun x => this.1 x.2), Or.inr ⟨rfl, this.2⟩⟩
      · rintro ⟨h1, h2⟩
        rcases h2 with h2 | ⟨rfl, h2⟩
        · exact absurd (Or.inl h2) h1
        · exact ⟨rfl, ih'.mpr ⟨fun h => h1 (Or.inr ⟨rfl, h⟩), h2⟩⟩

end Ndn.Name
