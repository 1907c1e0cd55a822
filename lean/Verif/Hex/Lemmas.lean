import Verif.Hex.Spec
namespace Ndn.Hex
open Spec

theorem toHexChar_digit (n : Nat) (u : Bool) : HexDigit (toHexChar n u) (n % 16) := by
  have : n % 16 < 16 := Nat.mod_lt _ (by omega)
  unfold toHexChar HexDigit
  simp only
  split
  · rename_i h
    left
    refine ⟨h, ?_⟩
    rw [UInt8.toNat_ofNat', Nat.mod_eq_of_lt (by omega)]
  · right
    refine ⟨by omega, by omega, ?_⟩
    split
    · left; rw [UInt8.toNat_ofNat', Nat.mod_eq_of_lt (by omega)]
    · right; rw [UInt8.toNat_ofNat', Nat.mod_eq_of_lt (by omega)]

theorem toHexChar_upper (n : Nat) : (toHexChar n true).toNat < 97 := by
  have : n % 16 < 16 := Nat.mod_lt _ (by omega)
  unfold toHexChar
  simp only
  split
  · rw [UInt8.toNat_ofNat', Nat.mod_eq_of_lt (by omega)]; omega
  · simp only [if_true]
    rw [UInt8.toNat_ofNat', Nat.mod_eq_of_lt (by omega)]; omega

theorem fromHexChar_iff (c : UInt8) (d : Nat) : fromHexChar c = some d ↔ HexDigit c d := by
  unfold fromHexChar HexDigit
  (repeat' split) <;> simp only [Option.some.injEq, reduceCtorEq] <;> constructor <;> intro h <;>
    first | omega | exact h.elim

theorem c2h_iff (c : UInt8) (d : Nat) : c2h c = some d ↔ HexDigit c d := by
  unfold c2h HexDigit
  (repeat' split) <;> simp only [Option.some.injEq, reduceCtorEq] <;> constructor <;> intro h <;>
    first | omega | exact h.elim

theorem HexDigit_lt {c : UInt8} {d : Nat} (h : HexDigit c d) : d < 16 := by
  unfold HexDigit at h; omega

theorem hexPair_iff (hi lo b : UInt8) :
    hexPair hi lo = some b ↔ ∃ h l, HexDigit hi h ∧ HexDigit lo l ∧ b.toNat = h * 16 + l := by
  unfold hexPair
  cases h1 : c2h hi with
  | none =>
    simp only [reduceCtorEq, false_iff]
    rintro ⟨h, l, a, _, _⟩
    rw [(c2h_iff _ _).mpr a] at h1; simp at h1
  | some h =>
    have d1 := (c2h_iff _ _).mp h1
    cases h2 : c2h lo with
    | none =>
      simp only [reduceCtorEq, false_iff]
      rintro ⟨h, l, _, a, _⟩
      rw [(c2h_iff _ _).mpr a] at h2; simp at h2
    | some l =>
      have d2 := (c2h_iff _ _).mp h2
      have := HexDigit_lt d1
      have := HexDigit_lt d2
      simp only [Option.some.injEq]
      constructor
      · rintro rfl
        refine ⟨h, l, d1, d2, ?_⟩
        rw [UInt8.toNat_ofNat', Nat.mod_eq_of_lt (by omega)]
      · rintro ⟨h', l', a, b', c⟩
        rw [(c2h_iff _ _).mpr a] at h1
        rw [(c2h_iff _ _).mpr b'] at h2
        simp at h1 h2
        subst h1 h2
        apply UInt8.toNat_inj.mp
        rw [UInt8.toNat_ofNat', Nat.mod_eq_of_lt (by omega), c]

theorem hexPairs_iff (s bs : Bytes) (heven : s.length % 2 = 0) :
    hexPairs s = some bs ↔ HexForm s bs := by
  induction s using hexPairs.induct generalizing bs with
  | case1 a b s hn =>
    simp only [hexPairs, hn, reduceCtorEq, false_iff]
    intro h
    cases h with
    | cons h1 h2 hb hs =>
      rw [(hexPair_iff _ _ _).mpr ⟨_, _, h1, h2, hb⟩] at hn; simp at hn
  | case2 a b s x hx ih =>
    simp only [hexPairs, hx]
    have hev : s.length % 2 = 0 := by simp at heven; omega
    obtain ⟨h, l, h1, h2, h3⟩ := (hexPair_iff _ _ _).mp hx
    constructor
    · intro hm
      cases hr : hexPairs s with
      | none => rw [hr] at hm; simp at hm
      | some r =>
        rw [hr] at hm; simp at hm; subst hm
        exact .cons h1 h2 h3 ((ih r hev).mp hr)
    · intro hf
      cases hf with
      | cons g1 g2 gb gs =>
        rw [(ih _ hev).mpr gs]
        have := (hexPair_iff _ _ _).mpr ⟨_, _, g1, g2, gb⟩
        rw [hx] at this
        simp at this
        simp [this]
  | case3 s hne =>
    match s, hne with
    | [], _ =>
      simp only [hexPairs, Option.some.injEq]
      constructor
      · rintro rfl; exact .nil
      · intro h; cases h; rfl
    | [a], _ => simp at heven
    | a :: b :: s, hne => exact absurd rfl (hne a b s)

theorem hexPairs_append (s t : Bytes) (heven : s.length % 2 = 0) :
    hexPairs (s ++ t) = (hexPairs s).bind (fun x => (hexPairs t).map (x ++ ·)) := by
  induction s using hexPairs.induct with
  | case1 a b s hn => simp [hexPairs, hn]
  | case2 a b s x hx ih =>
    have hev : s.length % 2 = 0 := by simp at heven; omega
    simp only [List.cons_append, hexPairs, hx, ih hev]
    cases hexPairs s with
    | none => simp
    | some p => cases hexPairs t <;> simp
  | case3 s hne =>
    match s, hne with
    | [], _ => cases h : hexPairs t <;> simp [hexPairs, h]
    | [a], _ => simp at heven
    | a :: b :: s, hne => exact absurd rfl (hne a b s)

/-- A trailing unpaired character does not matter for the pairs. -/
theorem hexPairs_odd (s : Bytes) (a : UInt8) (heven : s.length % 2 = 0) :
    hexPairs (s ++ [a]) = hexPairs s := by
  rw [hexPairs_append s [a] heven]
  cases hexPairs s <;> simp [hexPairs]

/-- Splitting a list of odd length at its last element. -/
theorem odd_split (s : Bytes) (h : s.length % 2 = 1) :
    ∃ t a, s = t ++ [a] ∧ t.length % 2 = 0 ∧ s.getLast? = some a := by
  have hne : s ≠ [] := by intro h0; simp [h0] at h
  refine ⟨s.dropLast, s.getLast hne, (List.dropLast_concat_getLast hne).symm, ?_, ?_⟩
  · simp; have : 0 < s.length := List.length_pos_iff.mpr hne; omega
  · simp [List.getLast?_eq_some_getLast hne]

/-- The pending odd character as a list. -/
def oddList : Option UInt8 → Bytes
  | none => []
  | some a => [a]

theorem toBytes_eq (odd : Option UInt8) (hex : Bytes) (hne : hex ≠ []) :
    toBytes odd hex = hexPairs (oddList odd ++ hex) := by
  cases odd with
  | none => simp [toBytes, oddList]
  | some o =>
    cases hex with
    | nil => exact absurd rfl hne
    | cons a s =>
      simp only [toBytes, oddList, List.singleton_append, hexPairs]

theorem hexConvert_spec (odd : Option UInt8) (hex : Bytes) :
    hexConvert odd hex =
      (hexPairs (oddList odd ++ hex)).map (fun out =>
        (if (oddList odd ++ hex).length % 2 = 1 then (oddList odd ++ hex).getLast? else none, out)) := by
  unfold hexConvert
  by_cases hne : hex = []
  · subst hne
    cases odd <;> simp [oddList, hexPairs]
  · rw [if_neg hne, toBytes_eq odd hex hne]
    cases hp : hexPairs (oddList odd ++ hex) with
    | none => simp
    | some out =>
      simp only [Option.map_some]
      congr 2
      have hlen : hex.length + (if odd.isSome = true then 1 else 0) = (oddList odd ++ hex).length := by
        cases odd <;> simp [oddList]
      rw [hlen]
      have hl : (oddList odd ++ hex).getLast? = hex.getLast? := by
        rw [List.getLast?_append]
        cases h : hex.getLast? with
        | none => simp at h; exact absurd h hne
        | some x => simp
      rw [hl]

/-- Main chunking lemma: feeding chunks is decoding the pending character followed by everything. -/
theorem hexDecodeChunks_spec (cs : List Bytes) (odd : Option UInt8) :
    hexDecodeChunks odd cs =
      if (oddList odd ++ cs.flatten).length % 2 = 1 then none
      else hexPairs (oddList odd ++ cs.flatten) := by
  induction cs generalizing odd with
  | nil => cases odd <;> simp [hexDecodeChunks, oddList, hexPairs]
  | cons c cs ih =>
    simp only [hexDecodeChunks, hexConvert_spec]
    have hassoc : oddList odd ++ (c :: cs).flatten = (oddList odd ++ c) ++ cs.flatten := by simp
    rw [hassoc]
    generalize hd : oddList odd ++ c = d
    by_cases hodd : d.length % 2 = 1
    · obtain ⟨t, a, rfl, ht, hlast⟩ := odd_split d hodd
      rw [hexPairs_odd t a ht]
      have e : t ++ [a] ++ cs.flatten = t ++ (oddList (some a) ++ cs.flatten) := by simp [oddList]
      rw [e, hexPairs_append t _ ht]
      cases hp : hexPairs t with
      | none => simp
      | some out =>
        simp only [Option.map_some, hodd, if_true, hlast, ih]
        have hl : (t ++ (oddList (some a) ++ cs.flatten)).length % 2 =
          (oddList (some a) ++ cs.flatten).length % 2 := by
          simp only [List.length_append]; omega
        rw [hl]
        split <;> simp
    · have hev : d.length % 2 = 0 := by omega
      rw [hexPairs_append d _ hev]
      cases hp : hexPairs d with
      | none => simp
      | some out =>
        have hn := ih none
        rw [show oddList none ++ cs.flatten = cs.flatten from rfl] at hn
        simp only [Option.map_some, hodd, if_false, hn, Option.bind_some]
        have hl : (d ++ cs.flatten).length % 2 = cs.flatten.length % 2 := by
          simp only [List.length_append]; omega
        rw [hl]
        by_cases hx : cs.flatten.length % 2 = 1
        · rw [if_pos hx, if_pos hx]; rfl
        · rw [if_neg hx, if_neg hx]

theorem Spec.HexForm.even {s bs : Bytes} (h : HexForm s bs) : s.length % 2 = 0 := by
  induction h with
  | nil => rfl
  | cons _ _ _ _ ih => simp; omega

theorem hexEncode_form (u : Bool) (bs : Bytes) : HexForm (hexEncode u bs) bs := by
  induction bs with
  | nil => exact .nil
  | cons b bs ih =>
    have hb := b.toNat_lt
    have h1 : HexDigit (toHexChar (b.toNat / 16) u) (b.toNat / 16) := by
      have := toHexChar_digit (b.toNat / 16) u
      rwa [Nat.mod_eq_of_lt (by omega)] at this
    exact .cons h1 (toHexChar_digit b.toNat u) (by omega) ih

theorem isUnreserved_iff (c : UInt8) : isUnreserved c = true ↔ Unreserved c := by
  unfold isUnreserved Unreserved
  simp only [Bool.or_eq_true, Bool.and_eq_true, decide_eq_true_eq, ← UInt8.toNat_inj]
  simp only [UInt8.reduceToNat]
  omega

theorem escape_form (s : Bytes) : EscForm (escape s) s := by
  induction s with
  | nil => exact .nil
  | cons c s ih =>
    unfold escape
    split
    · rename_i h; exact .plain ((isUnreserved_iff c).mp h) ih
    · rename_i h
      have hb := c.toNat_lt
      have h1 : HexDigit (toHexChar (c.toNat / 16) true) (c.toNat / 16) := by
        have := toHexChar_digit (c.toNat / 16) true
        rwa [Nat.mod_eq_of_lt (by omega)] at this
      exact .hex (fun hu => h ((isUnreserved_iff c).mpr hu)) h1 (toHexChar_digit c.toNat true)
        (toHexChar_upper _) (toHexChar_upper _) (by omega) ih

theorem unescape_cons_ne (a : UInt8) (s : Bytes) (h : a ≠ 37) : unescape (a :: s) = a :: unescape s := by
  match s with
  | [] => simp [unescape]
  | [b] => simp [unescape]
  | b :: c :: s => rw [unescape, if_neg h]

theorem unescape_form {e s : Bytes} (h : EscForm e s) : unescape e = s := by
  induction h with
  | nil => rfl
  | plain hc _ ih =>
    rw [unescape_cons_ne _ _ _, ih]
    rintro rfl
    revert hc; unfold Unreserved; decide
  | @hex c hi lo h l e s hc h1 h2 _ _ hv _ ih =>
    rw [unescape, if_pos rfl, (fromHexChar_iff _ _).mpr h1, (fromHexChar_iff _ _).mpr h2]
    simp only
    rw [ih]
    congr 1
    apply UInt8.toNat_inj.mp
    rw [UInt8.toNat_ofNat', ← hv, Nat.mod_eq_of_lt c.toNat_lt]

/-! ### Generic transform -/

theorem flush_total {σ} (t : TState σ) :
    (flush t).out ++ (flush t).pending = t.out ++ t.pending ∧ (flush t).conv = t.conv := by
  unfold flush
  split
  · exact ⟨rfl, rfl⟩
  · split <;> simp

/-- A stateless converter that respects concatenation. -/
structure Hom (c : Conv Unit) (f : Bytes → Bytes) : Prop where
  conv : ∀ s d, c.convert s d = some ((), f d)
  app : ∀ a b, f (a ++ b) = f a ++ f b
  nil : f [] = []
  fin : ∀ s, c.finalOk s = true
  fl : c.flushAtEnd = true

theorem pumpOne_hom {c : Conv Unit} {f : Bytes → Bytes} (h : Hom c f) (fuel : Nat) (t t' : TState Unit)
    (d : Bytes) (hp : pumpOne c fuel t d = some t') :
    t'.out ++ t'.pending = t.out ++ t.pending ++ f d := by
  induction fuel generalizing t d with
  | zero =>
    cases d with
    | nil => simp [pumpOne] at hp; subst hp; simp [h.nil]
    | cons b bs => simp [pumpOne] at hp
  | succ fuel ih =>
    cases d with
    | nil => simp [pumpOne] at hp; subst hp; simp [h.nil]
    | cons b bs =>
      simp only [pumpOne] at hp
      cases hw : doWrite c t (b :: bs) with
      | none => rw [hw] at hp; simp at hp
      | some p =>
        obtain ⟨t1, n⟩ := p
        rw [hw] at hp
        simp only at hp
        have := ih _ _ hp
        rw [this]
        unfold doWrite at hw
        simp only at hw
        split at hw
        · simp at hw
          obtain ⟨rfl, rfl⟩ := hw
          rw [(flush_total t).1]; rfl
        · rename_i hpend
          simp at hpend
          rw [h.conv] at hw
          simp only [Option.some.injEq, Prod.mk.injEq] at hw
          obtain ⟨rfl, rfl⟩ := hw
          rw [(flush_total _).1]
          have ht := (flush_total t).1
          rw [hpend] at ht
          simp only [List.append_nil] at ht
          rw [ht]
          simp [h.nil]

theorem flushAll_out {σ} (fuel : Nat) (t t' : TState σ) (h : flushAll fuel t = some t') :
    t'.out = t.out ++ t.pending := by
  induction fuel generalizing t with
  | zero =>
    simp only [flushAll] at h
    split at h
    · rename_i hp; simp at h; subst h; simp [hp]
    · simp at h
  | succ fuel ih =>
    simp only [flushAll] at h
    split at h
    · rename_i hp; simp at h; subst h; simp [hp]
    · rw [ih _ h, (flush_total t).1]

theorem pump_hom {c : Conv Unit} {f : Bytes → Bytes} (h : Hom c f) (fuel : Nat) (t : TState Unit)
    (cs : List Bytes) (out : Bytes) (hp : pump c fuel t cs = some out) :
    out = t.out ++ t.pending ++ f cs.flatten := by
  induction cs generalizing t with
  | nil =>
    simp only [pump, h.fin, h.fl, if_true] at hp
    cases hf : flushAll fuel t with
    | none => rw [hf] at hp; simp at hp
    | some t' =>
      rw [hf] at hp
      simp at hp
      subst hp
      rw [flushAll_out _ _ _ hf]; simp [h.nil]
  | cons b bs ih =>
    simp only [pump] at hp
    cases h1 : pumpOne c fuel t b with
    | none => rw [h1] at hp; simp at hp
    | some t1 =>
      rw [h1] at hp
      simp only [Option.bind_some] at hp
      rw [ih _ hp, pumpOne_hom h _ _ _ _ h1, List.flatten_cons, h.app]
      simp

end Ndn.Hex
