import Verif.Name.OrderLemmas
/-
C10: order of components. C11: order of names. C12: prefix relation. C13: successors.
-/
namespace Ndn.Name
open Spec

/-- C10: `compare` agrees in sign with canonical order, and is zero exactly on equal components,
whichever of the two carry an encoding (in shortest form). -/
theorem C10_compare (a b : WComp) (ca : Canonical a) (cb : Canonical b) (sa : Small a) (sb : Small b) :
    (a.compare b < 0 ↔ CompLt a.comp b.comp) ∧ (a.compare b = 0 ↔ a.comp = b.comp) ∧
      (0 < a.compare b ↔ CompLt b.comp a.comp) :=
  compare_agrees a b ca cb sa sb

/-- C10: canonical order is a strict total order. -/
theorem C10_total_order :
    (∀ a, ¬ CompLt a a) ∧ (∀ a b c, CompLt a b → CompLt b c → CompLt a c) ∧
      (∀ a b, CompLt a b ∨ a = b ∨ CompLt b a) :=
  ⟨CompLt_irrefl, fun _ _ _ => CompLt_trans, CompLt_total⟩

/-- C10: `==` is equality of type and value, and so agrees with `compare`. -/
theorem C10_eq (a b : WComp) : a.eq b = true ↔ a.comp = b.comp := by
  obtain ⟨wa, ⟨ta, va⟩⟩ := a
  obtain ⟨wb, ⟨tb, vb⟩⟩ := b
  simp [WComp.eq]

/-- C10, full claim: also for components decoded from encodings that are not the shortest. -/
def C10_claim : Prop := ∀ a b : WComp, Small a → Small b →
  (∀ w, a.wire = some w → Block.Spec.TlvForm w a.comp.type a.comp.value) →
  (∀ w, b.wire = some w → Block.Spec.TlvForm w b.comp.type b.comp.value) →
  (a.compare b = 0 ↔ a.comp = b.comp)

/-- C10: false of the code: the component `8=A` decoded from `08 01 41` and from `08 FD 00 01 41`
is equal by `==` but not by `compare`. -/
theorem C10_nonminimal_counterexample : ¬ C10_claim := by
  intro h
  have := h ⟨some [8, 1, 65], ⟨8, [65]⟩⟩ ⟨some [8, 253, 0, 1, 65], ⟨8, [65]⟩⟩
    (by unfold Small; decide) (by unfold Small; decide)
    (by rintro w ⟨⟩; exact ⟨[8], [1], rfl, .one 8 (by decide), by decide, by decide, .one 1 (by decide)⟩)
    (by rintro w ⟨⟩; exact ⟨[8], [253, 0, 1], rfl, .one 8 (by decide), by decide, by decide, .three 0 1⟩)
  revert this; decide

/-- C10: the size restriction is needed: the difference of sizes is cut to an `int`, so that an empty
component without encoding compares equal to one of 2^32 octets. -/
theorem C10_size_counterexample :
    ∃ a b : WComp, a.wire = none ∧ b.wire = none ∧ a.comp ≠ b.comp ∧ a.compare b = 0 := by
  have key : ∀ n : Nat, n = 2 ^ 32 → ∃ a b : WComp, a.wire = none ∧ b.wire = none ∧ a.comp ≠ b.comp ∧
      a.compare b = 0 := by
    intro n hn
    refine ⟨⟨none, ⟨8, []⟩⟩, ⟨none, ⟨8, List.replicate n 0⟩⟩, rfl, rfl, ?_, ?_⟩
    · intro h
      have := congrArg (fun c => c.value.length) h
      simp only [List.length_nil, List.length_replicate] at this
      omega
    · simp only [WComp.compare, List.length_replicate, List.length_nil, if_true, hn]
      decide
  exact key _ rfl

example : Canonical ⟨some [8, 1, 65], ⟨8, [65]⟩⟩ ∧ Small ⟨some [8, 1, 65], ⟨8, [65]⟩⟩ ∧
    WComp.compare ⟨some [8, 1, 65], ⟨8, [65]⟩⟩ ⟨none, ⟨8, [64, 64]⟩⟩ < 0 := by
  refine ⟨?_, by unfold Small; decide, by decide⟩
  rintro w ⟨⟩; decide

/-- A name whose components are within limits and carry shortest encodings, if any. -/
def NameOk (n : List WComp) : Prop := n.length < 2 ^ 31 ∧ ∀ c ∈ n, Canonical c ∧ Small c

/-- C11: `compare` on names agrees in sign with lexicographic canonical order; it is zero exactly
on equal names. -/
theorem C11_compare (a b : List WComp) (ha : NameOk a) (hb : NameOk b) :
    ∃ r, compare a b = some r ∧ (r < 0 ↔ NameLt (bare a) (bare b)) ∧ (r = 0 ↔ bare a = bare b) ∧
      (0 < r ↔ NameLt (bare b) (bare a)) := by
  refine ⟨_, compareSub_spec a b 0 _ 0 _ (by omega) (by omega) ha.1 hb.1, ?_⟩
  have e1 : (a.drop 0).take (2 ^ 64 - 1) = a := by
    rw [List.drop_zero, List.take_of_length_le]; have := ha.1; omega
  have e2 : (b.drop 0).take (2 ^ 64 - 1) = b := by
    rw [List.drop_zero, List.take_of_length_le]; have := hb.1; omega
  rw [e1, e2]
  exact cmpLists_agrees a b ha.2 hb.2

/-- C11: `equals` is equality of the component lists. -/
theorem C11_equals (a b : List WComp) : equals a b = true ↔ bare a = bare b := by
  unfold equals
  by_cases h : a.length = b.length
  · simp only [h, ne_eq, not_true_eq_false, if_false]
    rw [← h, range_all_getElem a b (by omega)]
    rw [show (bare b).take a.length = bare b from List.take_of_length_le (by simp [bare, h])]
  · simp only [h, ne_eq, not_false_eq_true, if_true, Bool.false_eq_true, false_iff]
    intro he
    have := congrArg List.length he
    simp [bare] at this
    omega

/-- C11: the order on names is a strict total order. -/
theorem C11_total_order :
    (∀ a, ¬ NameLt a a) ∧ (∀ a b c, NameLt a b → NameLt b c → NameLt a c) ∧
      (∀ a b, NameLt a b ∨ a = b ∨ NameLt b a) :=
  ⟨NameLt_irrefl, fun _ _ _ => NameLt_trans, NameLt_total⟩

/-- C11: a proper prefix comes first. -/
theorem C11_prefix_first (a : List Comp) (c : Comp) (t : List Comp) : NameLt a (a ++ c :: t) := by
  induction a with
  | nil => simp
  | cons x a ih => rw [List.cons_append, NameLt_cons]; exact Or.inr ⟨rfl, ih⟩

/-- C11: comparing ranges is comparing the corresponding sub-names. -/
theorem C11_subrange (a b : List WComp) (i n j m : Nat) (ha : NameOk a) (hb : NameOk b)
    (hi : i ≤ a.length) (hj : j ≤ b.length) :
    compareSub a i n b j m = compare ((a.drop i).take n) ((b.drop j).take m) := by
  rw [compareSub_spec a b i n j m hi hj ha.1 hb.1]
  have l1 : ((a.drop i).take n).length < 2 ^ 31 := by have := ha.1; simp; omega
  have l2 : ((b.drop j).take m).length < 2 ^ 31 := by have := hb.1; simp; omega
  unfold compare
  rw [compareSub_spec _ _ 0 _ 0 _ (by omega) (by omega) l1 l2]
  rw [List.drop_zero, List.drop_zero, List.take_of_length_le (i := 2 ^ 64 - 1) (by omega),
    List.take_of_length_le (i := 2 ^ 64 - 1) (by omega)]

/-- C11, full claim: the documented equivalence for every position. -/
def C11_subrange_claim : Prop := ∀ (a b : List WComp) (i n j m : Nat), NameOk a → NameOk b →
  compareSub a i n b j m = compare ((a.drop i).take n) ((b.drop j).take m)

/-- C11: false of the code for a start position beyond the end: `size() - pos1` wraps around and
components outside the name are read. -/
theorem C11_subrange_counterexample : ¬ C11_subrange_claim := by
  intro h
  have := h [] [⟨none, ⟨8, [65]⟩⟩] 1 1 0 1 (by simp [NameOk])
    ⟨by decide, by intro c hc; simp at hc; subst hc; exact ⟨by rintro w ⟨⟩, by unfold Small; decide⟩⟩
  revert this; decide

example : NameOk [⟨some [8, 1, 65], ⟨8, [65]⟩⟩, ⟨none, ⟨50, [1]⟩⟩] := by
  refine ⟨by decide, ?_⟩
  intro c hc
  simp at hc
  rcases hc with rfl | rfl
  · exact ⟨by rintro w ⟨⟩; decide, by unfold Small; decide⟩
  · exact ⟨by rintro w ⟨⟩, by unfold Small; decide⟩

/-- C12: `isPrefixOf` is the prefix relation on component lists. -/
theorem C12_prefix (a b : List WComp) : isPrefixOf a b = true ↔ bare a <+: bare b := by
  unfold isPrefixOf
  split
  · rename_i h
    simp only [Bool.false_eq_true, false_iff]
    intro hp
    have := hp.length_le
    simp [bare] at this
    omega
  · rename_i h
    rw [range_all_getElem a b (by omega), List.prefix_iff_eq_take]
    simp [bare]

/-- C12: for a non-empty name, being a prefix is lying in the range from the name (inclusive) to its
successor (exclusive), among names of valid components. -/
theorem C12_range (a b : List Comp) (ha : ValidName a) (hb : ValidName b) (hne : a ≠ []) :
    a <+: b ↔ (a = b ∨ NameLt a b) ∧ NameLt b (successor a) := by
  obtain ⟨p, c, rfl⟩ : ∃ p c, a = p ++ [c] := ⟨_, _, (List.dropLast_concat_getLast hne).symm⟩
  rw [successor_snoc, prefix_range p c b (ha c (by simp)) hb]
  constructor
  · rintro ⟨h1, h2⟩
    refine ⟨?_, h2⟩
    rcases NameLt_total (p ++ [c]) b with h | h | h
    · exact Or.inr h
    · exact Or.inl h
    · exact absurd h h1
  · rintro ⟨h1, h2⟩
    refine ⟨?_, h2⟩
    rcases h1 with h1 | h1
    · rw [← h1]; exact NameLt_irrefl _
    · exact fun h => NameLt_irrefl _ (NameLt_trans h h1)

/-- C12: the restriction to non-empty names is needed: the empty name is a prefix of every name, but
names such as `/A` are not below its successor. -/
theorem C12_empty : ∃ b, ValidName b ∧ [] <+: b ∧ ¬ NameLt b (successor []) := by
  refine ⟨[⟨8, [65]⟩], ?_, List.nil_prefix, ?_⟩
  · intro c hc; simp at hc; subst hc; unfold ValidComp; decide
  · unfold successor
    simp only [List.getLast?_nil]
    rw [NameLt_cons, CompLt_iff]
    simp

/-- C13: the successor of a valid component is valid, greater, and there is no valid component in
between. -/
theorem C13_component (c : Comp) (hc : ValidComp c) :
    ValidComp c.successor ∧ CompLt c c.successor ∧
      ∀ d, ValidComp d → CompLt c d → d = c.successor ∨ CompLt c.successor d :=
  ⟨successor_valid c hc, successor_lt c hc, fun d hd h => successor_least c d hc hd h⟩

/-- C13: the successor of a non-empty name is the least name above every name that has the given
name as prefix. -/
theorem C13_name (n : List Comp) (hn : ValidName n) (hne : n ≠ []) :
    ValidName (successor n) ∧
    (∀ m, ValidName m → n <+: m → NameLt m (successor n)) ∧
    (∀ k, ValidName k → (∀ m, ValidName m → n <+: m → NameLt m k) →
      k = successor n ∨ NameLt (successor n) k) := by
  refine ⟨?_, fun m hm hp => ((C12_range n m hn hm hne).mp hp).2, ?_⟩
  · obtain ⟨p, c, rfl⟩ : ∃ p c, n = p ++ [c] := ⟨_, _, (List.dropLast_concat_getLast hne).symm⟩
    rw [successor_snoc]
    intro d hd
    rcases List.mem_append.mp hd with hd | hd
    · exact hn d (by simp [hd])
    · simp at hd; subst hd; exact successor_valid c (hn c (by simp))
  · intro k hk hall
    rcases NameLt_total k (successor n) with h | h | h
    · exfalso
      have hnk : NameLt n k := hall n hn List.prefix_rfl
      have hp : n <+: k := (C12_range n k hn hk hne).mpr ⟨Or.inr hnk, h⟩
      exact NameLt_irrefl k (hall k hk hp)
    · exact Or.inl h
    · exact Or.inr h

/-- C13: the successor of the empty name is the least non-empty valid name. -/
theorem C13_empty (k : List Comp) (hk : ValidName k) (hne : k ≠ []) :
    k = successor [] ∨ NameLt (successor []) k := by
  cases k with
  | nil => exact absurd rfl hne
  | cons c t =>
    have hc := hk c (by simp)
    have hb := beNat_replicate_zero 32
    have key : c = ⟨1, List.replicate 32 0⟩ ∨ CompLt ⟨1, List.replicate 32 0⟩ c := by
      rw [CompLt_iff, Comp_eq_iff, hb]
      simp only [List.length_replicate]
      obtain ⟨h1, _, h3⟩ := hc
      by_cases h : c.type = 1
      · have := h3 (Or.inl h); omega
      · omega
    unfold successor
    simp only [List.getLast?_nil, NameLt_cons]
    rcases key with h | h
    · cases t with
      | nil => left; rw [h]
      | cons d t => right; right; exact ⟨h.symm, by simp⟩
    · exact Or.inr (Or.inl h)

example : ValidComp ⟨1, List.replicate 32 255⟩ ∧
    Comp.successor ⟨1, List.replicate 32 255⟩ = ⟨2, List.replicate 32 0⟩ ∧
    Comp.successor ⟨8, [65, 255]⟩ = ⟨8, [66, 0]⟩ ∧ Comp.successor ⟨8, [255]⟩ = ⟨8, [0, 0]⟩ := by
  refine ⟨by unfold ValidComp; decide, by decide, by decide, by decide⟩

end Ndn.Name
