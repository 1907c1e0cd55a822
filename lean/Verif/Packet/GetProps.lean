import Verif.Packet.Props
/-
C21, C22: what the accessors and setters of MetaInfo, KeyLocator and SignatureInfo do.
-/
namespace Ndn.Packet
open Spec Tlv Block Name

/-- C21: the freshness period read from a MetaInfo is the one it carries, or the longest duration there is if it does not fit. -/
theorem C21_freshness (m : MetaInfo) :
    (m.freshness < 2 ^ 63 → m.getFreshness = m.freshness) ∧ (2 ^ 63 ≤ m.freshness → m.getFreshness = 2 ^ 63 - 1) := by
  unfold MetaInfo.getFreshness
  constructor <;> intro h <;> split <;> omega

theorem removeFirst_none {t : Nat} {l : List Raw} (h : ∀ b ∈ l, b.type ≠ t) : removeFirst t l = none := by
  induction l with
  | nil => rfl
  | cons b l ih =>
    rw [removeFirst, if_neg (h b (by simp)), ih (fun c hc => h c (by simp [hc]))]; rfl

theorem removeFirst_some {t : Nat} {pre post : List Raw} {b : Raw} (h : ∀ b ∈ pre, b.type ≠ t) (hb : b.type = t) :
    removeFirst t (pre ++ b :: post) = some (pre ++ post) := by
  induction pre with
  | nil => rw [List.nil_append, removeFirst, if_pos hb]; rfl
  | cons c pre ih =>
    rw [List.cons_append, removeFirst, if_neg (h c (by simp)), ih (fun c hc => h c (by simp [hc]))]; rfl

/-- C21: each setter of a MetaInfo sets its field to the argument and no other; application elements must have types 128 to
252; removal takes away the first element of the type and no other, and leaves the object as it is if there is none. -/
theorem C21_setters (o : MObj) :
    (∀ t, (o.step (.setType t)).1 = true ∧ (o.step (.setType t)).2.m = { o.m with type := t }) ∧
    (∀ n : Nat, (o.step (.setFreshness n)).1 = true ∧ (o.step (.setFreshness n)).2.m = { o.m with freshness := n }) ∧
    (∀ i : Int, i < 0 → o.step (.setFreshness i) = (false, o)) ∧
    (∀ c, (o.step (.setFinalBlock c)).1 = true ∧ (o.step (.setFinalBlock c)).2.m = { o.m with finalBlock := c }) ∧
    (∀ l, (∀ b ∈ l, 128 ≤ b.type ∧ b.type ≤ 252) →
      (o.step (.setApp l)).1 = true ∧ (o.step (.setApp l)).2.m = { o.m with app := l }) ∧
    (∀ l, (∃ b ∈ l, ¬ (128 ≤ b.type ∧ b.type ≤ 252)) → o.step (.setApp l) = (false, o)) ∧
    (∀ b, 128 ≤ b.type ∧ b.type ≤ 252 →
      (o.step (.addApp b)).1 = true ∧ (o.step (.addApp b)).2.m = { o.m with app := o.m.app ++ [b] }) ∧
    (∀ b, ¬ (128 ≤ b.type ∧ b.type ≤ 252) → o.step (.addApp b) = (false, o)) ∧
    (∀ t, (∀ b ∈ o.m.app, b.type ≠ t) → o.step (.removeApp t) = (true, o)) ∧
    (∀ t pre b post, o.m.app = pre ++ b :: post → (∀ x ∈ pre, x.type ≠ t) → b.type = t →
      (o.step (.removeApp t)).1 = true ∧ (o.step (.removeApp t)).2.m = { o.m with app := pre ++ post }) := by
  refine ⟨fun t => ⟨rfl, rfl⟩, ?_, ?_, fun c => ⟨rfl, rfl⟩, ?_, ?_, ?_, ?_, ?_, ?_⟩
  · intro n
    simp only [MObj.step]
    rw [if_neg (by omega)]
    exact ⟨rfl, rfl⟩
  · intro i hi
    simp only [MObj.step]
    rw [if_pos hi]
  · intro l h
    simp only [MObj.step]
    rw [if_neg ?_]
    · exact ⟨rfl, rfl⟩
    · simp only [List.any_eq_true, Bool.or_eq_true, decide_eq_true_eq, not_exists, not_and, not_or]
      intro b hb; have := h b hb; omega
  · rintro l ⟨b, hb, hn⟩
    simp only [MObj.step]
    rw [if_pos ?_]
    simp only [List.any_eq_true, Bool.or_eq_true, decide_eq_true_eq]
    exact ⟨b, hb, by omega⟩
  · intro b h
    simp only [MObj.step]
    rw [if_pos h]; exact ⟨rfl, rfl⟩
  · intro b h
    simp only [MObj.step]
    rw [if_neg h]
  · intro t h
    simp only [MObj.step]
    rw [removeFirst_none h]
  · intro t pre b post he h hb
    simp only [MObj.step]
    rw [he, removeFirst_some h hb]; exact ⟨rfl, rfl⟩

/-- `SameLocator a b`: both are absent, both hold the same name, both hold a digest element of the same type and value, or
both are of the same unknown type. -/
inductive SameLocator : KeyLoc → KeyLoc → Prop
  | none : SameLocator .none .none
  | name (n : List Comp) : SameLocator (.name n) (.name n)
  | digest {a b : Raw} (ht : a.type = b.type) (hv : a.value = b.value) : SameLocator (.digest a) (.digest b)
  | unknown (t : Nat) : SameLocator (.unknown t) (.unknown t)

/-- C22: key locators compare equal exactly when they hold the same; the type tells what a locator holds. -/
theorem C22_locator (a b : KeyLoc) :
    (a.eq b = true ↔ SameLocator a b) ∧
    (a.getType = 7 ↔ (∃ n, a = .name n) ∨ a = .unknown 7) ∧
    (a.getType = 29 ↔ (∃ d, a = .digest d) ∨ a = .unknown 29) ∧
    (a.getType = 0 ↔ a = .none ∨ a = .unknown 0) ∧
    (∀ t, a = .unknown t → a.getType = t) := by
  refine ⟨?_, ?_, ?_, ?_, ?_⟩
  · constructor
    · intro h
      cases a <;> cases b <;> simp only [KeyLoc.eq, decide_eq_true_eq, Bool.false_eq_true] at h
      · exact .none
      · subst h; exact .name _
      · simp only [Raw.equals, Bool.and_eq_true, decide_eq_true_eq, beq_iff_eq] at h
        exact .digest h.1 h.2
      · subst h; exact .unknown _
    · intro h
      cases h with
      | none => rfl
      | name => simp [KeyLoc.eq]
      | digest ht hv => simp [KeyLoc.eq, Raw.equals, ht, hv]
      | unknown => simp [KeyLoc.eq]
  · cases a <;> simp [KeyLoc.getType]
  · cases a <;> simp [KeyLoc.getType]
  · cases a <;> simp [KeyLoc.getType]
  · rintro t rfl; rfl

/-- C22: setting a key locator that is the same as the present one leaves the object, with its encoding, as it is; any other
replaces it, changes nothing else and drops the encoding. So does setting the signature type. -/
theorem C22_setters (o : SObj) (k : Option KeyLoc) (t : Nat) :
    (k = none ∧ o.s.keyLocator = none → o.step (.setKeyLocator k) = (true, o)) ∧
    (∀ a b, k = some a → o.s.keyLocator = some b → SameLocator a b → o.step (.setKeyLocator k) = (true, o)) ∧
    (¬ (k = none ∧ o.s.keyLocator = none) → (∀ a b, k = some a → o.s.keyLocator = some b → ¬ SameLocator a b) →
      o.step (.setKeyLocator k) = (true, ⟨none, { o.s with keyLocator := k }⟩)) ∧
    (o.s.type = some t → o.step (.setType t) = (true, o)) ∧
    (o.s.type ≠ some t → o.step (.setType t) = (true, ⟨none, { o.s with type := some t }⟩)) := by
  refine ⟨?_, ?_, ?_, ?_, ?_⟩
  · rintro ⟨rfl, h⟩
    simp [SObj.step, h, optKeyLocEq]
  · rintro a b rfl hb h
    simp [SObj.step, hb, optKeyLocEq, ((C22_locator a b).1).mpr h]
  · intro h1 h2
    have : optKeyLocEq k o.s.keyLocator = false := by
      cases k with
      | none =>
        cases hk : o.s.keyLocator with
        | none => exact absurd ⟨rfl, hk⟩ h1
        | some b => rfl
      | some a =>
        cases hk : o.s.keyLocator with
        | none => rfl
        | some b =>
          have := h2 a b rfl hk
          rw [← (C22_locator a b).1] at this
          simpa [optKeyLocEq] using this
    simp [SObj.step, this]
  · intro h; simp [SObj.step, h]
  · intro h
    simp only [SObj.step]
    rw [if_pos (fun e => h e.symm)]

example : (MetaInfo.mk 0 0 none [binaryBlock 128 [1], binaryBlock 129 [], binaryBlock 128 [2]]).app =
    [] ++ binaryBlock 128 [1] :: [binaryBlock 129 [], binaryBlock 128 [2]] ∧
    SameLocator (.name [⟨8, [97]⟩]) (.name [⟨8, [97]⟩]) ∧ ¬ SameLocator (.name [⟨8, [97]⟩]) .none :=
  ⟨rfl, .name _, fun h => nomatch h⟩

end Ndn.Packet
