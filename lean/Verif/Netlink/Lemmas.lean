import Verif.Netlink.Spec
/-
Lemmas on the reading of datagrams and attributes.
-/
namespace Ndn.Netlink
open Spec

theorem u8_append (pre b stale : Bytes) (k : Nat) (h : k < b.length) : u8 (pre ++ b ++ stale) (pre.length + k) = u8 b k := by
  unfold u8
  congr 1
  simp only [List.getD_eq_getElem?_getD]
  rw [List.append_assoc, List.getElem?_append_right (by omega), show pre.length + k - pre.length = k by omega,
    List.getElem?_append_left h]

theorem u32_append (pre b stale : Bytes) (k : Nat) (h : k + 3 < b.length) : u32 (pre ++ b ++ stale) (pre.length + k) = u32 b k := by
  unfold u32 u16
  simp only [Nat.add_assoc]
  rw [u8_append _ _ _ _ (by omega), u8_append _ _ _ _ (by omega), u8_append _ _ _ _ (by omega), u8_append _ _ _ _ (by omega)]

theorem u8_take (b : Bytes) (n k : Nat) (h : k < n) : u8 (b.take n) k = u8 b k := by
  unfold u8
  simp only [List.getD_eq_getElem?_getD, List.getElem?_take, if_pos h]

theorem u32_take (b : Bytes) (n k : Nat) (h : k + 3 < n) : u32 (b.take n) k = u32 b k := by
  unfold u32 u16
  rw [u8_take _ _ _ (by omega), u8_take _ _ _ (by omega), u8_take _ _ _ (by omega), u8_take _ _ _ (by omega)]

theorem u16_take (b : Bytes) (n k : Nat) (h : k + 1 < n) : u16 (b.take n) k = u16 b k := by
  unfold u16
  rw [u8_take _ _ _ (by omega), u8_take _ _ _ (by omega)]

theorem u8_left (b s : Bytes) (k : Nat) (h : k < b.length) : u8 (b ++ s) k = u8 b k := by
  unfold u8
  congr 1
  simp only [List.getD_eq_getElem?_getD]
  rw [List.getElem?_append_left h]

theorem u16_left (b s : Bytes) (k : Nat) (h : k + 1 < b.length) : u16 (b ++ s) k = u16 b k := by
  unfold u16
  rw [u8_left _ _ _ (by omega), u8_left _ _ _ (by omega)]

theorem u32_left (b s : Bytes) (k : Nat) (h : k + 3 < b.length) : u32 (b ++ s) k = u32 b k := by
  unfold u32
  rw [u16_left _ _ _ (by omega), u16_left _ _ _ (by omega)]

theorem align4_spec (n : Nat) : n ≤ align4 n ∧ align4 n < n + 4 ∧ align4 n % 4 = 0 := by
  unfold align4; omega

theorem scan_padded (fuel : Nat) : ∀ (pre b stale : Bytes), b.length % 4 = 0 → b.length < 2 ^ 64 → b.length < fuel →
    ∃ ms, scan fuel (pre ++ b ++ stale) pre.length b.length = (ms, .done) ∧ Messages b ms := by
  induction fuel with
  | zero => intro _ _ _ _ _ h; omega
  | succ n ih =>
    intro pre b stale h4 hb hf
    simp only [scan]
    by_cases h1 : b.length < 16
    · exact ⟨[], by rw [if_pos h1], .stop _ (fun h => by unfold StartsMsg at h; omega)⟩
    · rw [if_neg h1]
      have hl : u32 (pre ++ b ++ stale) pre.length = u32 b 0 := by
        have := u32_append pre b stale 0 (by omega)
        simpa using this
      rw [if_neg (by simp only [List.length_append]; omega), hl]
      by_cases h2 : u32 b 0 < 16 ∨ b.length < u32 b 0
      · exact ⟨[], by rw [if_pos h2], .stop _ (fun h => by unfold StartsMsg at h; omega)⟩
      · rw [if_neg h2, if_neg (by simp only [List.length_append]; omega)]
        have ha := align4_spec (u32 b 0)
        have hle : align4 (u32 b 0) ≤ b.length := by omega
        have e : pre ++ b ++ stale = (pre ++ b.take (align4 (u32 b 0))) ++ b.drop (align4 (u32 b 0)) ++ stale := by
          rw [List.append_assoc pre (b.take _), List.take_append_drop]
        have el : (pre ++ b.take (align4 (u32 b 0))).length = pre.length + align4 (u32 b 0) := by
          simp only [List.length_append, List.length_take]; omega
        have ed : (b.drop (align4 (u32 b 0))).length = b.length - align4 (u32 b 0) := List.length_drop
        obtain ⟨ms, hs, hm⟩ := ih (pre ++ b.take (align4 (u32 b 0))) (b.drop (align4 (u32 b 0))) stale (by omega) (by omega) (by omega)
        rw [← e, el, ed] at hs
        have hmod : (b.length + 2 ^ 64 - align4 (u32 b 0)) % 2 ^ 64 = b.length - align4 (u32 b 0) := by omega
        rw [hmod, hs]
        have ht : ((pre ++ b ++ stale).drop pre.length).take (u32 b 0) = b.take (u32 b 0) := by
          rw [List.append_assoc, List.drop_left, List.take_append_of_le_length (by omega)]
        rw [ht]
        refine ⟨_, rfl, ?_⟩
        have hsplit : b = b.take (u32 b 0) ++ (b.drop (u32 b 0)).take (align4 (u32 b 0) - u32 b 0) ++ b.drop (align4 (u32 b 0)) := by
          have h3 : (b.drop (u32 b 0)).drop (align4 (u32 b 0) - u32 b 0) = b.drop (align4 (u32 b 0)) := by
            rw [List.drop_drop, show u32 b 0 + (align4 (u32 b 0) - u32 b 0) = align4 (u32 b 0) by omega]
          rw [List.append_assoc, ← h3, List.take_append_drop, List.take_append_drop]
        have hg := Messages.msg (b.take (u32 b 0)) ((b.drop (u32 b 0)).take (align4 (u32 b 0) - u32 b 0)) (b.drop (align4 (u32 b 0))) ms
          (by rw [List.length_take]; omega)
          (by rw [u32_take _ _ _ (by omega), List.length_take]; omega)
          (by simp only [List.length_take, List.length_drop]; omega)
          (by simp only [List.length_take, List.length_drop]; omega) hm
        rw [← hsplit] at hg
        exact hg

theorem starts_of {m s : Bytes} (h : 16 ≤ m.length) (hu : u32 m 0 = m.length) : StartsMsg (m ++ s) ∧ u32 (m ++ s) 0 = m.length := by
  have e : u32 (m ++ s) 0 = m.length := by rw [u32_left _ _ _ (by omega), hu]
  refine ⟨⟨?_, ?_, ?_⟩, e⟩ <;> (try simp only [List.length_append]) <;> omega

theorem messages_unique {b : Bytes} {ms ms' : List Bytes} (h : Messages b ms) (h' : Messages b ms') : ms = ms' := by
  induction h generalizing ms' with
  | stop b hb =>
    cases h' with
    | stop => rfl
    | msg m pad rest ms h1 h2 => exact absurd (by rw [List.append_assoc]; exact (starts_of h1 h2).1) hb
    | last m pad h1 h2 => exact absurd (starts_of h1 h2).1 hb
  | msg m pad rest ms h1 h2 h3 h4 _ ih =>
    generalize hx : m ++ pad ++ rest = x at h'
    have s1 := starts_of (s := pad ++ rest) h1 h2
    cases h' with
    | stop _ hb => exact absurd (by rw [← hx, List.append_assoc]; exact s1.1) hb
    | msg m' pad' rest' ms' g1 g2 g3 g4 g5 =>
      have s2 := starts_of (s := pad' ++ rest') g1 g2
      rw [List.append_assoc, List.append_assoc] at hx
      have hl : m.length = m'.length := by rw [← s1.2, ← s2.2, hx]
      obtain ⟨rfl, hy⟩ := List.append_inj hx hl
      obtain ⟨rfl, rfl⟩ := List.append_inj hy (by omega)
      rw [ih g5]
    | last m' pad' g1 g2 g3 g4 =>
      have s2 := starts_of (s := pad') g1 g2
      rw [List.append_assoc] at hx
      have hl : m.length = m'.length := by rw [← s1.2, ← s2.2, hx]
      obtain ⟨rfl, hy⟩ := List.append_inj hx hl
      exact absurd h4 (g4 pad.length (by rw [← hy, List.length_append]; omega))
  | last m pad h1 h2 h3 h4 =>
    generalize hx : m ++ pad = x at h'
    have s1 := starts_of (s := pad) h1 h2
    cases h' with
    | stop _ hb => exact absurd (by rw [← hx]; exact s1.1) hb
    | msg m' pad' rest' ms' g1 g2 g3 g4 g5 =>
      have s2 := starts_of (s := pad' ++ rest') g1 g2
      rw [List.append_assoc] at hx
      have hl : m.length = m'.length := by rw [← s1.2, ← s2.2, hx]
      obtain ⟨rfl, hy⟩ := List.append_inj hx hl
      exact absurd g4 (h4 pad'.length (by rw [hy, List.length_append]; omega))
    | last m' pad' g1 g2 g3 g4 =>
      have s2 := starts_of (s := pad') g1 g2
      have hl : m.length = m'.length := by rw [← s1.2, ← s2.2, hx]
      obtain ⟨rfl, hy⟩ := List.append_inj hx hl
      rfl

/-! ### Attributes -/

theorem ofNat_u8 (b : Bytes) (i : Nat) (hi : i < b.length) : UInt8.ofNat (u8 b i) = b[i] := by
  unfold u8; rw [UInt8.ofNat_toNat, List.getD_eq_getElem?_getD, List.getElem?_eq_getElem hi]; rfl

theorem u8_lt (b : Bytes) (i : Nat) : u8 b i < 256 := UInt8.toNat_lt _

theorem ofNat_low (b : Bytes) (i : Nat) : UInt8.ofNat (u16 b i) = UInt8.ofNat (u8 b i) := by
  apply UInt8.toNat_inj.mp
  simp only [UInt8.toNat_ofNat', u16]
  omega

theorem ofNat_high (b : Bytes) (i : Nat) : UInt8.ofNat (u16 b i / 256) = UInt8.ofNat (u8 b (i + 1)) := by
  apply UInt8.toNat_inj.mp
  have := u8_lt b i
  simp only [UInt8.toNat_ofNat', u16]
  omega

theorem four (b : Bytes) (h : 4 ≤ b.length) : b.take 4 = [UInt8.ofNat (u8 b 0), UInt8.ofNat (u8 b 1), UInt8.ofNat (u8 b 2), UInt8.ofNat (u8 b 3)] := by
  rw [ofNat_u8 _ _ (by omega), ofNat_u8 _ _ (by omega), ofNat_u8 _ _ (by omega), ofNat_u8 _ _ (by omega)]
  match b, h with
  | a :: b :: c :: d :: l, _ => rfl

theorem attr_form (b : Bytes) (h1 : 4 ≤ b.length) (h2 : 4 ≤ u16 b 0) (h3 : u16 b 0 ≤ b.length) :
    attrBytes (u16 b 2) ((b.take (u16 b 0)).drop 4) = b.take (u16 b 0) := by
  have hl : ((b.take (u16 b 0)).drop 4).length + 4 = u16 b 0 := by simp only [List.length_drop, List.length_take]; omega
  have hf := four b h1
  unfold attrBytes
  rw [hl, ofNat_low, ofNat_high, ofNat_low, ofNat_high, ← hf]
  have : b.take 4 = (b.take (u16 b 0)).take 4 := by rw [List.take_take, Nat.min_eq_left h2]
  rw [this, List.take_append_drop]

theorem attrBytes_length (t : Nat) (v : Bytes) : (attrBytes t v).length = v.length + 4 := by simp [attrBytes]

theorem attrBytes_head (t : Nat) (v s : Bytes) (ht : t < 2 ^ 16) (hv : v.length + 4 < 2 ^ 16) :
    u16 (attrBytes t v ++ s) 0 = v.length + 4 ∧ u16 (attrBytes t v ++ s) 2 = t := by
  have : ∀ n : Nat, n < 2 ^ 16 → (UInt8.ofNat n).toNat + 256 * (UInt8.ofNat (n / 256)).toNat = n := by
    intro n hn; simp only [UInt8.toNat_ofNat']; omega
  exact ⟨this _ hv, this _ ht⟩

theorem attrs_spec (fuel : Nat) : ∀ b : Bytes, b.length < fuel → Attributes b (attrs fuel b) := by
  induction fuel with
  | zero => intro _ h; omega
  | succ n ih =>
    intro b hb
    simp only [attrs]
    by_cases h : b.length < 4 ∨ u16 b 0 < 4 ∨ b.length < u16 b 0
    · rw [if_pos h]; exact .stop _ (fun g => by unfold StartsAttr at g; omega)
    · rw [if_neg h]
      have ha := align4_spec (u16 b 0)
      have hf := attr_form b (by omega) (by omega) (by omega)
      have hl : ((b.take (u16 b 0)).drop 4).length + 4 = u16 b 0 := by simp only [List.length_drop, List.length_take]; omega
      have ht : u16 b 2 < 2 ^ 16 := by have := u8_lt b 2; have := u8_lt b (2 + 1); unfold u16; omega
      have hz : u16 b 0 < 2 ^ 16 := by have := u8_lt b 0; have := u8_lt b (0 + 1); unfold u16; omega
      by_cases hle : b.length < align4 (u16 b 0)
      · rw [if_pos hle]
        have hg := Attributes.last (u16 b 2) ((b.take (u16 b 0)).drop 4) (b.drop (u16 b 0)) ht (by omega)
          (by rw [List.length_drop]; omega)
          (by intro k hk; rw [List.length_drop] at hk; omega)
        rw [hf, List.take_append_drop] at hg
        exact hg
      · rw [if_neg hle]
        have hsplit : b = b.take (u16 b 0) ++ (b.drop (u16 b 0)).take (align4 (u16 b 0) - u16 b 0) ++ b.drop (align4 (u16 b 0)) := by
          have h3 : (b.drop (u16 b 0)).drop (align4 (u16 b 0) - u16 b 0) = b.drop (align4 (u16 b 0)) := by
            rw [List.drop_drop, show u16 b 0 + (align4 (u16 b 0) - u16 b 0) = align4 (u16 b 0) by omega]
          rw [List.append_assoc, ← h3, List.take_append_drop, List.take_append_drop]
        have hg := Attributes.attr (u16 b 2) ((b.take (u16 b 0)).drop 4) ((b.drop (u16 b 0)).take (align4 (u16 b 0) - u16 b 0))
          (b.drop (align4 (u16 b 0))) (attrs n (b.drop (align4 (u16 b 0)))) ht (by omega)
          (by simp only [List.length_take, List.length_drop]; omega)
          (by simp only [List.length_take, List.length_drop] at hl ⊢; omega)
          (ih _ (by rw [List.length_drop]; omega))
        rw [hf, ← hsplit] at hg
        exact hg

theorem startsAttr_of {t : Nat} {v s : Bytes} (ht : t < 2 ^ 16) (hv : v.length + 4 < 2 ^ 16) : StartsAttr (attrBytes t v ++ s) := by
  have := (attrBytes_head t v s ht hv).1
  refine ⟨?_, ?_, ?_⟩ <;> simp only [List.length_append, attrBytes_length, this] <;> omega

theorem attrBytes_inj {t t' : Nat} {v v' s s' : Bytes} (ht : t < 2 ^ 16) (hv : v.length + 4 < 2 ^ 16) (ht' : t' < 2 ^ 16)
    (hv' : v'.length + 4 < 2 ^ 16) (h : attrBytes t v ++ s = attrBytes t' v' ++ s') : t = t' ∧ v = v' ∧ s = s' := by
  have a := attrBytes_head t v s ht hv
  have b := attrBytes_head t' v' s' ht' hv'
  rw [h] at a
  have hl : v.length = v'.length := by omega
  have htt : t = t' := by omega
  obtain ⟨h1, h2⟩ := List.append_inj h (by rw [attrBytes_length, attrBytes_length, hl])
  refine ⟨htt, ?_, h2⟩
  unfold attrBytes at h1
  exact (List.append_inj h1 rfl).2

theorem attributes_unique {b : Bytes} {as as' : List (Nat × Bytes)} (h : Attributes b as) (h' : Attributes b as') : as = as' := by
  induction h generalizing as' with
  | stop b hb =>
    cases h' with
    | stop => rfl
    | attr t v pad rest ms h1 h2 => exact absurd (by rw [List.append_assoc]; exact startsAttr_of h1 h2) hb
    | last t v pad h1 h2 => exact absurd (startsAttr_of h1 h2) hb
  | attr t v pad rest ms h1 h2 h3 h4 _ ih =>
    generalize hx : attrBytes t v ++ pad ++ rest = x at h'
    cases h' with
    | stop _ hb => exact absurd (by rw [← hx, List.append_assoc]; exact startsAttr_of h1 h2) hb
    | attr t' v' pad' rest' ms' g1 g2 g3 g4 g5 =>
      rw [List.append_assoc, List.append_assoc] at hx
      obtain ⟨rfl, rfl, hy⟩ := attrBytes_inj h1 h2 g1 g2 hx
      obtain ⟨rfl, rfl⟩ := List.append_inj hy (by omega)
      rw [ih g5]
    | last t' v' pad' g1 g2 g3 g4 =>
      rw [List.append_assoc] at hx
      obtain ⟨rfl, rfl, hy⟩ := attrBytes_inj h1 h2 g1 g2 hx
      exact absurd h4 (g4 pad.length (by rw [← hy, List.length_append]; omega))
  | last t v pad h1 h2 h3 h4 =>
    generalize hx : attrBytes t v ++ pad = x at h'
    cases h' with
    | stop _ hb => exact absurd (by rw [← hx]; exact startsAttr_of h1 h2) hb
    | attr t' v' pad' rest' ms' g1 g2 g3 g4 g5 =>
      rw [List.append_assoc] at hx
      obtain ⟨rfl, rfl, hy⟩ := attrBytes_inj h1 h2 g1 g2 hx
      exact absurd g4 (h4 pad'.length (by rw [hy, List.length_append]; omega))
    | last t' v' pad' g1 g2 g3 g4 =>
      obtain ⟨rfl, rfl, hy⟩ := attrBytes_inj h1 h2 g1 g2 hx
      rfl

theorem attr_iff (as : List (Nat × Bytes)) (t : Nat) (v : Bytes) : attr as t = some v ↔ Value as t v := by
  unfold attr Value
  constructor
  · intro h
    induction as with
    | nil => simp at h
    | cons x l ih =>
      by_cases hl : (l.filter (fun a => a.1 = t)) = []
      · by_cases hx : x.1 = t
        · have : x.2 = v := by simpa [List.filter_cons, hx, hl] using h
          refine ⟨[], l, by rw [← this, ← hx]; rfl, fun y hy e => ?_⟩
          have : y ∈ l.filter (fun a => a.1 = t) := List.mem_filter.mpr ⟨hy, by simpa using e⟩
          rw [hl] at this; cases this
        · simp [List.filter_cons, hx, hl] at h
      · have hh : ((l.filter (fun a => a.1 = t)).getLast?).map (·.2) = some v := by
          by_cases hx : x.1 = t
          · rw [List.filter_cons, if_pos (by simpa using hx)] at h
            rw [← h]
            cases hf : l.filter (fun a => a.1 = t) with
            | nil => exact absurd hf hl
            | cons a b => rw [List.getLast?_cons_cons]
          · rw [List.filter_cons, if_neg (by simpa using hx)] at h
            exact h
        obtain ⟨l1, l2, e, h2⟩ := ih hh
        exact ⟨x :: l1, l2, by rw [e]; rfl, h2⟩
  · rintro ⟨l1, l2, rfl, h⟩
    have : l2.filter (fun a => a.1 = t) = [] := by
      rw [List.filter_eq_nil_iff]; intro x hx; simpa using h x hx
    simp [List.filter_append, List.filter_cons, this]

end Ndn.Netlink
