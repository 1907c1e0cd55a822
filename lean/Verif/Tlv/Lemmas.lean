import Verif.Tlv.Spec
namespace Ndn.Tlv

theorem beNat_foldl (bs : Bytes) (a : Nat) :
    bs.foldl (fun acc b => acc * 256 + b.toNat) a = a * 256 ^ bs.length + beNat bs := by
  induction bs generalizing a with
  | nil => simp [beNat]
  | cons b bs ih =>
    simp only [List.foldl_cons, List.length_cons, beNat]
    rw [ih, ih (0 * 256 + b.toNat)]
    simp only [Nat.pow_succ, Nat.add_mul]
    have : a * 256 * 256 ^ bs.length = a * (256 ^ bs.length * 256) := by
      rw [Nat.mul_assoc, Nat.mul_comm 256]
    omega

@[simp] theorem beNat_nil : beNat [] = 0 := rfl

theorem beNat_cons (b : UInt8) (bs : Bytes) :
    beNat (b :: bs) = b.toNat * 256 ^ bs.length + beNat bs := by
  have := beNat_foldl bs (b.toNat)
  simpa [beNat] using this

theorem beNat_append (xs ys : Bytes) : beNat (xs ++ ys) = beNat xs * 256 ^ ys.length + beNat ys := by
  simp only [beNat, List.foldl_append]
  exact beNat_foldl ys _

theorem beNat_lt (bs : Bytes) : beNat bs < 256 ^ bs.length := by
  induction bs with
  | nil => simp
  | cons b bs ih =>
    rw [beNat_cons, List.length_cons, Nat.pow_succ]
    have hb : b.toNat ≤ 255 := by have := b.toNat_lt; omega
    have : b.toNat * 256 ^ bs.length ≤ 255 * 256 ^ bs.length := Nat.mul_le_mul_right _ hb
    omega

@[simp] theorem beBytes_length (k n : Nat) : (beBytes k n).length = k := by
  induction k with
  | zero => rfl
  | succ k ih => simp [beBytes, ih]

theorem beNat_beBytes (k n : Nat) : beNat (beBytes k n) = n % 256 ^ k := by
  induction k with
  | zero => simp [beBytes, Nat.mod_one]
  | succ k ih =>
    rw [beBytes, beNat_cons, beBytes_length, ih, UInt8.toNat_ofNat']
    have h1 : n % 256 ^ (k + 1) = n % 256 ^ k + 256 ^ k * (n / 256 ^ k % 256) := by
      rw [Nat.pow_succ, Nat.mod_mul]
    rw [h1, Nat.mul_comm (256 ^ k), show (2:Nat) ^ 8 = 256 from rfl]
    omega

theorem beNat_beBytes_of_lt {k n : Nat} (h : n < 256 ^ k) : beNat (beBytes k n) = n := by
  rw [beNat_beBytes, Nat.mod_eq_of_lt h]

theorem beNat_inj {xs ys : Bytes} (hl : xs.length = ys.length) (h : beNat xs = beNat ys) :
    xs = ys := by
  induction xs generalizing ys with
  | nil => cases ys with
    | nil => rfl
    | cons => simp at hl
  | cons x xs ih =>
    cases ys with
    | nil => simp at hl
    | cons y ys =>
      simp only [List.length_cons, Nat.add_right_cancel_iff] at hl
      rw [beNat_cons, beNat_cons, hl] at h
      have h1 := beNat_lt xs
      have h2 := beNat_lt ys
      rw [hl] at h1
      have hpos : 0 < 256 ^ ys.length := Nat.pow_pos (by decide)
      have hx : (x.toNat * 256 ^ ys.length + beNat xs) / 256 ^ ys.length = x.toNat := by
        rw [Nat.mul_comm, Nat.mul_add_div hpos, Nat.div_eq_of_lt h1]; simp
      have hy : (y.toNat * 256 ^ ys.length + beNat ys) / 256 ^ ys.length = y.toNat := by
        rw [Nat.mul_comm, Nat.mul_add_div hpos, Nat.div_eq_of_lt h2]; simp
      have hxy : x.toNat = y.toNat := by rw [← hx, ← hy, h]
      have : beNat xs = beNat ys := by rw [hxy] at h; omega
      rw [ih hl this, UInt8.toNat_inj.mp hxy]

theorem beBytes_beNat (bs : Bytes) : beBytes bs.length (beNat bs) = bs := by
  apply beNat_inj
  · simp
  · exact beNat_beBytes_of_lt (beNat_lt bs)

theorem readNumber_append {size : Nat} {pre rest : Bytes} (h : pre.length = size) :
    readNumber size (pre ++ rest) = some (beNat pre, rest) := by
  subst h
  simp [readNumber]

theorem readNumber_eq_some {size n : Nat} {bs rest : Bytes} :
    readNumber size bs = some (n, rest) ↔
      ∃ pre, bs = pre ++ rest ∧ pre.length = size ∧ beNat pre = n := by
  constructor
  · intro h
    unfold readNumber at h
    split at h
    · simp at h
    · rename_i hl
      simp only [Option.some.injEq, Prod.mk.injEq] at h
      refine ⟨bs.take size, ?_, ?_, h.1⟩
      · rw [← h.2]; simp
      · simp; omega
  · rintro ⟨pre, rfl, hl, rfl⟩
    exact readNumber_append hl

theorem readNumberSlowLoop_eq (c acc : Nat) (bs : Bytes) (h : acc * 256 ^ c < 2 ^ 64) (hc : c ≤ 8) :
    readNumberSlowLoop c acc bs =
      if bs.length < c then none
      else some (acc * 256 ^ c + beNat (bs.take c), bs.drop c) := by
  induction c generalizing acc bs with
  | zero => simp [readNumberSlowLoop]
  | succ c ih =>
    cases bs with
    | nil => simp [readNumberSlowLoop]
    | cons b bs =>
      have hb := b.toNat_lt
      have hpos : 0 < 256 ^ c := Nat.pow_pos (by decide)
      have hor : (acc <<< 8 ||| b.toNat) = acc * 256 + b.toNat := by
        rw [← Nat.shiftLeft_add_eq_or_of_lt (by simpa using hb), Nat.shiftLeft_eq]
      have hpow : acc * 256 ^ (c + 1) = acc * 256 * 256 ^ c := by
        rw [Nat.pow_succ, Nat.mul_assoc, Nat.mul_comm (256 ^ c)]
      -- the accumulator never wraps: acc*256^(c+1) is a multiple of 256^(c+1) below 2^64
      have hkey : (acc * 256 + b.toNat) * 256 ^ c < 2 ^ 64 := by
        have h64 : 2 ^ 64 = 256 ^ (c + 1) * 256 ^ (8 - (c + 1)) := by
          rw [← Nat.pow_add, show c + 1 + (8 - (c + 1)) = 8 by omega]
        have hlt : acc < 256 ^ (8 - (c + 1)) := by
          rw [h64, Nat.mul_comm] at h
          exact Nat.lt_of_mul_lt_mul_left h
        have h1 : (acc + 1) * 256 ^ (c + 1) ≤ 2 ^ 64 := by
          rw [h64, Nat.mul_comm (256 ^ (c+1))]
          exact Nat.mul_le_mul_right _ hlt
        have h2 : (acc * 256 + b.toNat) * 256 ^ c < (acc + 1) * 256 * 256 ^ c :=
          Nat.mul_lt_mul_of_pos_right (by omega) hpos
        have h3 : (acc + 1) * 256 * 256 ^ c = (acc + 1) * 256 ^ (c + 1) := by
          rw [Nat.pow_succ, Nat.mul_assoc, Nat.mul_comm (256 ^ c)]
        omega
      have hnw : (acc * 256 + b.toNat) % 2 ^ 64 = acc * 256 + b.toNat := by
        apply Nat.mod_eq_of_lt
        exact Nat.lt_of_le_of_lt (Nat.le_mul_of_pos_right _ hpos) hkey
      rw [readNumberSlowLoop, hor, hnw, ih _ _ hkey (by omega)]
      simp only [List.length_cons, Nat.add_lt_add_iff_right, List.take_succ_cons,
        List.drop_succ_cons]
      split
      · rfl
      · rename_i hlen
        rw [beNat_cons, List.length_take, Nat.min_eq_left (by omega), hpow, Nat.add_mul]
        simp [Nat.add_assoc]

theorem readNumberSlow_eq {size : Nat} (hs : size ≤ 8) (bs : Bytes) :
    readNumberSlow size bs = readNumber size bs := by
  rw [readNumberSlow, readNumberSlowLoop_eq _ _ _ (by simp) hs, readNumber]
  simp

theorem and_three_cases (x : Nat) (h1 : 253 ≤ x) (h2 : x < 256) :
    (x = 253 ∧ 1 <<< (x &&& 3) = 2) ∨ (x = 254 ∧ 1 <<< (x &&& 3) = 4) ∨
      (x = 255 ∧ 1 <<< (x &&& 3) = 8) := by
  have : x = 253 ∨ x = 254 ∨ x = 255 := by omega
  rcases this with rfl | rfl | rfl <;> simp

theorem readVarNumberSlow_eq (bs : Bytes) : readVarNumberSlow bs = readVarNumber bs := by
  cases bs with
  | nil => rfl
  | cons b bs =>
    simp only [readVarNumberSlow, readVarNumber]
    split
    · rfl
    · rcases and_three_cases b.toNat (by omega) b.toNat_lt with h | h | h <;>
        rw [h.2, readNumberSlow_eq (by decide)]

theorem readTypeSlow_eq (bs : Bytes) : readTypeSlow bs = readType bs := by
  rw [readTypeSlow, readType, readVarNumberSlow_eq]

/-! Explicit forms -/

theorem length_eq_two {bs : Bytes} (h : bs.length = 2) : ∃ a b, bs = [a, b] := by
  match bs, h with
  | [a, b], _ => exact ⟨a, b, rfl⟩

theorem length_eq_four {bs : Bytes} (h : bs.length = 4) : ∃ a b c d, bs = [a, b, c, d] := by
  match bs, h with
  | [a, b, c, d], _ => exact ⟨a, b, c, d, rfl⟩

theorem length_eq_eight {bs : Bytes} (h : bs.length = 8) :
    ∃ a b c d e f g h, bs = [a, b, c, d, e, f, g, h] := by
  match bs, h with
  | [a, b, c, d, e, f, g, h], _ => exact ⟨a, b, c, d, e, f, g, h, rfl⟩

theorem beNat_two (a b : UInt8) : beNat [a, b] = a.toNat * 256 + b.toNat := by
  simp [beNat]

theorem beNat_four (a b c d : UInt8) : beNat [a, b, c, d] =
    a.toNat * 256 ^ 3 + b.toNat * 256 ^ 2 + c.toNat * 256 + d.toNat := by
  simp [beNat]; omega

theorem beNat_eight (a b c d e f g h : UInt8) : beNat [a, b, c, d, e, f, g, h] =
    a.toNat * 256 ^ 7 + b.toNat * 256 ^ 6 + c.toNat * 256 ^ 5 + d.toNat * 256 ^ 4 +
      e.toNat * 256 ^ 3 + f.toNat * 256 ^ 2 + g.toNat * 256 + h.toNat := by
  simp [beNat]; omega

open Spec

theorem readVarNumber_iff {bs rest : Bytes} {n : Nat} :
    readVarNumber bs = some (n, rest) ↔ ∃ pre, bs = pre ++ rest ∧ VarForm pre n := by
  constructor
  · intro h
    cases bs with
    | nil => simp [readVarNumber] at h
    | cons b bs =>
      simp only [readVarNumber] at h
      split at h
      · simp only [Option.some.injEq, Prod.mk.injEq] at h
        exact ⟨[b], by simp [h.2], h.1 ▸ VarForm.one b (by omega)⟩
      · rcases and_three_cases b.toNat (by omega) b.toNat_lt with ⟨hb, hs⟩ | ⟨hb, hs⟩ | ⟨hb, hs⟩ <;>
          rw [hs] at h <;> obtain ⟨pre, rfl, hl, rfl⟩ := readNumber_eq_some.mp h
        · obtain ⟨x, y, rfl⟩ := length_eq_two hl
          have : b = 253 := UInt8.toNat_inj.mp hb
          subst this
          exact ⟨[253, x, y], rfl, beNat_two x y ▸ VarForm.three x y⟩
        · obtain ⟨x, y, z, w, rfl⟩ := length_eq_four hl
          have : b = 254 := UInt8.toNat_inj.mp hb
          subst this
          exact ⟨[254, x, y, z, w], rfl, beNat_four x y z w ▸ VarForm.five x y z w⟩
        · obtain ⟨a, b', c, d, e, f, g, i, rfl⟩ := length_eq_eight hl
          have : b = 255 := UInt8.toNat_inj.mp hb
          subst this
          exact ⟨[255, a, b', c, d, e, f, g, i], rfl,
            beNat_eight a b' c d e f g i ▸ VarForm.nine a b' c d e f g i⟩
  · rintro ⟨pre, rfl, hf⟩
    cases hf with
    | one a h => simp [readVarNumber]; omega
    | three a b =>
      have : readVarNumber (253 :: ([a, b] ++ rest)) = some (beNat [a, b], rest) :=
        readNumber_append (size := 2) (pre := [a, b]) (rest := rest) rfl
      rw [beNat_two] at this; exact this
    | five a b c d =>
      have : readVarNumber (254 :: ([a, b, c, d] ++ rest)) = some (beNat [a, b, c, d], rest) :=
        readNumber_append (size := 4) (pre := [a, b, c, d]) (rest := rest) rfl
      rw [beNat_four] at this; exact this
    | nine a b c d e f g h =>
      have : readVarNumber (255 :: ([a, b, c, d, e, f, g, h] ++ rest)) =
          some (beNat [a, b, c, d, e, f, g, h], rest) :=
        readNumber_append (size := 8) (pre := [a, b, c, d, e, f, g, h]) (rest := rest) rfl
      rw [beNat_eight] at this; exact this

theorem Spec.VarForm.lt {bs : Bytes} {n : Nat} (h : VarForm bs n) : n < 2 ^ 64 := by
  cases h with
  | one a h => omega
  | three a b => have := a.toNat_lt; have := b.toNat_lt; omega
  | five a b c d =>
    have := beNat_lt [a, b, c, d]; rw [beNat_four] at this; simp at this ⊢; omega
  | nine a b c d e f g h =>
    have := beNat_lt [a, b, c, d, e, f, g, h]; rw [beNat_eight] at this; simp at this ⊢; omega

theorem writeVarNumber_form {n : Nat} (h : n < 2 ^ 64) : VarForm (writeVarNumber n) n := by
  unfold writeVarNumber
  split
  · rename_i h1
    have : (UInt8.ofNat n).toNat = n := by rw [UInt8.toNat_ofNat']; omega
    have h2 := VarForm.one (UInt8.ofNat n) (by omega)
    rw [this] at h2; exact h2
  split
  · have hl := beBytes_length 2 n
    have hv := beNat_beBytes_of_lt (k := 2) (n := n) (by omega)
    obtain ⟨a, b, hab⟩ := length_eq_two hl
    rw [hab] at hv ⊢
    rw [← hv, beNat_two]; exact VarForm.three a b
  split
  · have hl := beBytes_length 4 n
    have hv := beNat_beBytes_of_lt (k := 4) (n := n) (by omega)
    obtain ⟨a, b, c, d, hab⟩ := length_eq_four hl
    rw [hab] at hv ⊢
    rw [← hv, beNat_four]; exact VarForm.five a b c d
  · have hl := beBytes_length 8 n
    have hv := beNat_beBytes_of_lt (k := 8) (n := n) (by omega)
    obtain ⟨a, b, c, d, e, f, g, i, hab⟩ := length_eq_eight hl
    rw [hab] at hv ⊢
    rw [← hv, beNat_eight]; exact VarForm.nine a b c d e f g i

theorem writeVarNumber_length (n : Nat) : (writeVarNumber n).length = sizeOfVarNumber n := by
  unfold writeVarNumber sizeOfVarNumber
  repeat' split
  all_goals simp

theorem readVarNumber_writeVarNumber {n : Nat} (h : n < 2 ^ 64) (rest : Bytes) :
    readVarNumber (writeVarNumber n ++ rest) = some (n, rest) :=
  readVarNumber_iff.mpr ⟨_, rfl, writeVarNumber_form h⟩

theorem readType_writeVarNumber {n : Nat} (h0 : 0 < n) (h : n < 2 ^ 32) (rest : Bytes) :
    readType (writeVarNumber n ++ rest) = some (n, rest) := by
  rw [readType, readVarNumber_writeVarNumber (by omega)]
  simp only
  rw [if_neg (by omega)]

theorem readType_iff {bs rest : Bytes} {n : Nat} :
    readType bs = some (n, rest) ↔ ∃ pre, bs = pre ++ rest ∧ VarForm pre n ∧ 0 < n ∧ n < 2 ^ 32 := by
  constructor
  · intro h
    unfold readType at h
    split at h
    · simp at h
    · rename_i m r hm
      split at h
      · simp at h
      · rename_i hn
        simp only [Option.some.injEq, Prod.mk.injEq] at h
        obtain ⟨rfl, rfl⟩ := h
        obtain ⟨pre, hp, hf⟩ := readVarNumber_iff.mp hm
        exact ⟨pre, hp, hf, by omega, by omega⟩
  · rintro ⟨pre, rfl, hf, h0, h1⟩
    rw [readType, readVarNumber_iff.mpr ⟨pre, rfl, hf⟩]
    simp only
    rw [if_neg (by omega)]

theorem readNonNegativeInteger_iff {len n : Nat} {bs rest : Bytes} :
    readNonNegativeInteger len bs = some (n, rest) ↔
      ∃ pre, bs = pre ++ rest ∧ pre.length = len ∧ NniForm pre n := by
  constructor
  · intro h
    unfold readNonNegativeInteger at h
    split at h
    · simp at h
    · rename_i hl
      obtain ⟨pre, rfl, rfl, rfl⟩ := readNumber_eq_some.mp h
      refine ⟨pre, rfl, rfl, ?_⟩
      have : pre.length = 1 ∨ pre.length = 2 ∨ pre.length = 4 ∨ pre.length = 8 := by omega
      rcases this with h | h | h | h
      · obtain ⟨a, rfl⟩ := List.length_eq_one_iff.mp h
        have : beNat [a] = a.toNat := by simp [beNat]
        rw [this]; exact NniForm.one a
      · obtain ⟨x, y, rfl⟩ := length_eq_two h
        rw [beNat_two]; exact NniForm.two x y
      · obtain ⟨x, y, z, w, rfl⟩ := length_eq_four h
        rw [beNat_four]; exact NniForm.four x y z w
      · obtain ⟨a, b', c, d, e, f, g, i, rfl⟩ := length_eq_eight h
        rw [beNat_eight]; exact NniForm.eight a b' c d e f g i
  · rintro ⟨pre, rfl, rfl, hf⟩
    have key : beNat pre = n := by
      cases hf with
      | one a => simp [beNat]
      | two => exact beNat_two _ _
      | four => exact beNat_four _ _ _ _
      | eight => exact beNat_eight _ _ _ _ _ _ _ _
    unfold readNonNegativeInteger
    rw [if_neg, readNumber_append rfl, key]
    cases hf <;> simp

theorem writeNonNegativeInteger_form {n : Nat} (h : n < 2 ^ 64) :
    NniForm (writeNonNegativeInteger n) n := by
  unfold writeNonNegativeInteger
  split
  · have : (UInt8.ofNat n).toNat = n := by rw [UInt8.toNat_ofNat']; omega
    have h2 := NniForm.one (UInt8.ofNat n)
    rw [this] at h2; exact h2
  split
  · have hl := beBytes_length 2 n
    have hv := beNat_beBytes_of_lt (k := 2) (n := n) (by omega)
    obtain ⟨a, b, hab⟩ := length_eq_two hl
    rw [hab] at hv ⊢
    rw [← hv, beNat_two]; exact NniForm.two a b
  split
  · have hl := beBytes_length 4 n
    have hv := beNat_beBytes_of_lt (k := 4) (n := n) (by omega)
    obtain ⟨a, b, c, d, hab⟩ := length_eq_four hl
    rw [hab] at hv ⊢
    rw [← hv, beNat_four]; exact NniForm.four a b c d
  · have hl := beBytes_length 8 n
    have hv := beNat_beBytes_of_lt (k := 8) (n := n) (by omega)
    obtain ⟨a, b, c, d, e, f, g, i, hab⟩ := length_eq_eight hl
    rw [hab] at hv ⊢
    rw [← hv, beNat_eight]; exact NniForm.eight a b c d e f g i

theorem writeNonNegativeInteger_length (n : Nat) :
    (writeNonNegativeInteger n).length = sizeOfNonNegativeInteger n := by
  unfold writeNonNegativeInteger sizeOfNonNegativeInteger
  repeat' split
  all_goals simp

theorem readNniValue_iff {v : Bytes} {n : Nat} : readNniValue v = some n ↔ NniForm v n := by
  unfold readNniValue
  rw [Option.map_eq_some_iff]
  constructor
  · rintro ⟨⟨m, r⟩, h, rfl⟩
    obtain ⟨pre, hp, hl, hf⟩ := readNonNegativeInteger_iff.mp h
    have hr : r = [] := by
      have h2 := congrArg List.length hp
      rw [List.length_append] at h2
      exact List.length_eq_zero_iff.mp (by omega)
    subst hr
    simp at hp
    exact hp ▸ hf
  · intro h
    exact ⟨(n, []), readNonNegativeInteger_iff.mpr ⟨v, by simp, rfl, h⟩, rfl⟩

theorem readNniValue_write {n : Nat} (h : n < 2 ^ 64) :
    readNniValue (writeNonNegativeInteger n) = some n :=
  readNniValue_iff.mpr (writeNonNegativeInteger_form h)

end Ndn.Tlv
