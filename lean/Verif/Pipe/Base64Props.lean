import Verif.Pipe.Props
/-
Base64 as in RFC 4648, with lines of 64 characters when encoding: it has all that C115 asks of OpenSSL's.
-/
namespace Ndn.Pipe.Rfc
open Ndn.Pipe.Spec

/-- The digit for a number below 64. -/
def digit (n : Nat) : UInt8 :=
  UInt8.ofNat (if n < 26 then 65 + n else if n < 52 then 71 + n else if n < 62 then n - 4 else if n = 62 then 43 else 47)

/-- The number of a digit. -/
def value (c : UInt8) : Option Nat :=
  let k := c.toNat
  if 65 ≤ k ∧ k ≤ 90 then some (k - 65) else if 97 ≤ k ∧ k ≤ 122 then some (k - 71) else if 48 ≤ k ∧ k ≤ 57 then some (k + 4)
  else if k = 43 then some 62 else if k = 47 then some 63 else none

/-- RFC 4648, section 4. -/
def enc : Bytes → Bytes
  | a :: b :: c :: r => digit (a.toNat / 4) :: digit (a.toNat % 4 * 16 + b.toNat / 16) :: digit (b.toNat % 16 * 4 + c.toNat / 64) ::
      digit (c.toNat % 64) :: enc r
  | [a, b] => [digit (a.toNat / 4), digit (a.toNat % 4 * 16 + b.toNat / 16), digit (b.toNat % 16 * 4), 61]
  | [a] => [digit (a.toNat / 4), digit (a.toNat % 4 * 16), 61, 61]
  | [] => []

def dec : Bytes → Bytes
  | p :: q :: r :: s :: t =>
    match value p, value q, value r, value s with
    | some a, some b, some c, some d => UInt8.ofNat (a * 4 + b / 16) :: UInt8.ofNat (b % 16 * 16 + c / 4) :: UInt8.ofNat (c % 4 * 64 + d) :: dec t
    | some a, some b, some c, none => if s = 61 then [UInt8.ofNat (a * 4 + b / 16), UInt8.ofNat (b % 16 * 16 + c / 4)] else []
    | some a, some b, none, none => if r = 61 ∧ s = 61 then [UInt8.ofNat (a * 4 + b / 16)] else []
    | _, _, _, _ => []
  | _ => []

theorem value_digit (n : Nat) (h : n < 64) : value (digit n) = some n := by
  have : ∀ n : _root_.Fin 64, value (digit n.1) = some n.1 := by decide +kernel
  exact this ⟨n, h⟩

theorem digit_ne (n : Nat) : digit n ≠ 10 := by
  unfold digit
  by_cases h : n < 64
  · have : ∀ n : _root_.Fin 64, digit n.1 ≠ 10 := by decide +kernel
    exact this ⟨n, h⟩
  · rw [if_neg (by omega), if_neg (by omega), if_neg (by omega), if_neg (by omega)]
    decide

theorem byte_eq (a : UInt8) (k : Nat) (h : k = a.toNat) : UInt8.ofNat k = a := by subst h; simp

theorem dec_enc (x : Bytes) : dec (enc x) = x := by
  fun_induction enc x with
  | case1 a b c r ih =>
    have ha := a.toNat_lt; have hb := b.toNat_lt; have hc := c.toNat_lt
    simp only [dec]
    rw [value_digit _ (by omega), value_digit _ (by omega), value_digit _ (by omega), value_digit _ (by omega)]
    dsimp only
    rw [ih, byte_eq a _ (by omega), byte_eq b _ (by omega), byte_eq c _ (by omega)]
  | case2 a b =>
    have ha := a.toNat_lt; have hb := b.toNat_lt
    simp only [dec]
    rw [value_digit _ (by omega), value_digit _ (by omega), value_digit _ (by omega), show value 61 = none from rfl]
    dsimp only
    rw [if_pos trivial, byte_eq a _ (by omega), byte_eq b _ (by omega)]
  | case3 a =>
    have ha := a.toNat_lt
    simp only [dec]
    rw [value_digit _ (by omega), value_digit _ (by omega), show value 61 = none from rfl]
    dsimp only
    rw [if_pos ⟨trivial, trivial⟩, byte_eq a _ (by omega)]
  | case4 => rfl

theorem enc_append (x y : Bytes) (h : x.length % 3 = 0) : enc (x ++ y) = enc x ++ enc y := by
  fun_induction enc x with
  | case1 a b c r ih =>
    simp only [List.cons_append, enc, List.cons.injEq, true_and]
    exact ih (by simp only [List.length_cons] at h; omega)
  | case2 a b => simp at h
  | case3 a => simp at h
  | case4 => rfl

theorem enc_no_break (x : Bytes) : (enc x).filter (fun c => !decide (c = 10)) = enc x := by
  fun_induction enc x with
  | case1 a b c r ih => simp [List.filter_cons, digit_ne, ih]
  | case2 a b => simp [List.filter_cons, digit_ne]
  | case3 a => simp [List.filter_cons, digit_ne]
  | case4 => rfl

theorem dec_mono (x y : Bytes) : dec x <+: dec (x ++ y) := by
  fun_induction dec x with
  | case1 p q r s t a b c d hp hq hr hs ih =>
    simp only [List.cons_append, dec, hp, hq, hr, hs]
    exact List.cons_prefix_cons.2 ⟨rfl, List.cons_prefix_cons.2 ⟨rfl, List.cons_prefix_cons.2 ⟨rfl, ih⟩⟩⟩
  | case2 => simp_all [dec]
  | case3 => exact List.nil_prefix
  | case4 => simp_all [dec]
  | case5 => exact List.nil_prefix
  | case6 => exact List.nil_prefix
  | case7 => exact List.nil_prefix

/-- Complete lines of 64 characters. -/
def lines : Nat → Bytes → Bytes
  | 0, _ => []
  | n + 1, x => if 48 ≤ x.length then enc (x.take 48) ++ [10] ++ lines n (x.drop 48) else []

/-- All lines. -/
def allLines : Nat → Bytes → Bytes
  | 0, x => if x = [] then [] else enc x ++ [10]
  | n + 1, x => if 48 ≤ x.length then enc (x.take 48) ++ [10] ++ allLines n (x.drop 48) else if x = [] then [] else enc x ++ [10]

theorem lines_prefix (n m : Nat) (x y : Bytes) (hn : n ≤ m) : lines n x <+: lines m (x ++ y) := by
  induction n generalizing m x with
  | zero => exact List.nil_prefix
  | succ n ih =>
    obtain ⟨m, rfl⟩ : ∃ k, m = k + 1 := ⟨m - 1, by omega⟩
    simp only [lines]
    by_cases h : 48 ≤ x.length
    · rw [if_pos h, if_pos (by simp; omega), List.take_append_of_le_length h, List.drop_append_of_le_length h]
      exact (List.prefix_append_right_inj _).2 (ih m _ (by omega))
    · rw [if_neg h]; exact List.nil_prefix

theorem lines_all (n : Nat) (x : Bytes) : lines n x <+: allLines n x := by
  induction n generalizing x with
  | zero => exact List.nil_prefix
  | succ n ih =>
    simp only [lines, allLines]
    by_cases h : 48 ≤ x.length
    · rw [if_pos h, if_pos h]
      exact (List.prefix_append_right_inj _).2 (ih _)
    · rw [if_neg h]; exact List.nil_prefix

theorem allLines_enc (n : Nat) (x : Bytes) : (allLines n x).filter (fun c => !decide (c = 10)) = enc x := by
  have base : ∀ x : Bytes, (if x = [] then [] else enc x ++ [10]).filter (fun c => !decide (c = 10)) = enc x := by
    intro x
    split
    · subst_vars; rfl
    · rw [List.filter_append, enc_no_break]; simp
  induction n generalizing x with
  | zero => exact base x
  | succ n ih =>
    simp only [allLines]
    split
    · rename_i h
      rw [List.filter_append, List.filter_append, enc_no_break, ih]
      have := enc_append (x.take 48) (x.drop 48) (by rw [List.length_take]; omega)
      rw [List.take_append_drop] at this
      rw [this]
      simp
    · exact base x

/-- Base64. -/
def base64 : Base64 where
  enc := ⟨fun x => lines x.length x, fun x => some (allLines x.length x)⟩
  dec := ⟨dec, fun x => some (dec x)⟩

/-- C115: what is asked of OpenSSL's base64 holds of base64 as in RFC 4648. -/
theorem C115_base64 : Base64Laws base64 where
  enc := ⟨fun x y => lines_prefix _ _ x y (by simp), by rintro x z ⟨⟩; exact lines_all _ _⟩
  dec := ⟨dec_mono, by rintro x z ⟨⟩; exact List.prefix_refl _⟩
  total := fun x => rfl
  encTotal := fun x => rfl
  inv := by
    rintro x z ⟨⟩
    show some (dec _) = _
    rw [allLines_enc, dec_enc]

/-- "Zm9vYmE=" is "fooba". -/
example : enc [102, 111, 111, 98, 97] = [90, 109, 57, 118, 89, 109, 69, 61] := by decide

end Ndn.Pipe.Rfc
