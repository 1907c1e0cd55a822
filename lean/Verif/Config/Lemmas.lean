import Verif.Config.Spec
import Verif.Regex.Props
import Verif.Name.EditProps
import Verif.Name.UriProps
/-
Lemmas about single names, packets, filters and checkers.
-/
namespace Ndn.Config
open Ndn.Name Ndn.Packet

theorem iequals_iff {w : Bytes} (h : w.map lower = w) (k : Bytes) : iequals k w = true ↔ Spec.Is w k := by
  unfold iequals Spec.Is
  rw [h]
  exact beq_iff_eq

theorem prefix_iff (a b : List Comp) : a.isPrefixOf b = true ↔ ∃ t, b = a ++ t := by
  rw [List.isPrefixOf_iff_prefix]
  exact ⟨fun ⟨t, h⟩ => ⟨t, h.symm⟩, fun ⟨t, h⟩ => ⟨t, h.symm⟩⟩

theorem checkNameRelation_iff (r : Relation) (a b : List Comp) : checkNameRelation r a b = true ↔ Spec.Rel r a b := by
  cases r with
  | equal => exact beq_iff_eq
  | isPrefixOf => exact prefix_iff a b
  | isStrictPrefixOf =>
    simp only [checkNameRelation, Bool.and_eq_true, prefix_iff, decide_eq_true_eq, Spec.Rel]
    constructor
    · rintro ⟨⟨t, rfl⟩, h⟩
      cases t with
      | nil => simp at h
      | cons c t => exact ⟨c, t, rfl⟩
    · rintro ⟨c, t, rfl⟩
      exact ⟨⟨c :: t, rfl⟩, by simp⟩

theorem relationOf_iff (s : Bytes) (r : Relation) : relationOf s = some r ↔ Spec.SaysRelation s r := by
  unfold relationOf
  constructor
  · intro h
    split at h
    · rename_i e; cases h; exact .equal s ((iequals_iff (by decide) s).1 e)
    · split at h
      · rename_i e; cases h; exact .isPrefixOf s ((iequals_iff (by decide) s).1 e)
      · split at h
        · rename_i e; cases h; exact .isStrictPrefixOf s ((iequals_iff (by decide) s).1 e)
        · simp at h
  · intro h
    cases h with
    | equal h => rw [if_pos ((iequals_iff (by decide) s).2 h)]
    | isPrefixOf h =>
      rw [if_neg, if_pos ((iequals_iff (by decide) s).2 h)]
      intro e
      have := (iequals_iff (w := wEqual) (by decide) s).1 e
      unfold Spec.Is at h this
      rw [h] at this; revert this; decide
    | isStrictPrefixOf h =>
      rw [if_neg, if_neg, if_pos ((iequals_iff (by decide) s).2 h)]
      · intro e
        have := (iequals_iff (w := wIsPrefix) (by decide) s).1 e
        unfold Spec.Is at h this
        rw [h] at this; revert this; decide
      · intro e
        have := (iequals_iff (w := wEqual) (by decide) s).1 e
        unfold Spec.Is at h this
        rw [h] at this; revert this; decide

/-! ### Identities -/

theorem searchKey_iff (kl : List Comp) (lb i : Nat) (hi : i ≤ kl.length) (id : List Comp) :
    searchKey kl lb i = some id ↔
      ∃ j, j < i ∧ lb ≤ j ∧ kl[j]? = some keyComp ∧ id = kl.take j ∧ ∀ (k : Nat), j < k → k < i → kl[k]? ≠ some keyComp := by
  induction i with
  | zero => simp [searchKey]
  | succ i ih =>
    unfold searchKey
    split
    · rename_i h
      simp only [reduceCtorEq, false_iff]
      rintro ⟨j, h1, h2, _⟩
      omega
    · split
      · rename_i h1 h2
        constructor
        · intro h; cases h
          exact ⟨i, by omega, by omega, h2, rfl, fun k _ _ => by omega⟩
        · rintro ⟨j, h3, h4, h5, rfl, h6⟩
          by_cases e : j = i
          · rw [e]
          · exact absurd h2 (h6 i (by omega) (by omega))
      · rename_i h1 h2
        rw [ih (by omega)]
        constructor
        · rintro ⟨j, h3, h4, h5, h6, h7⟩
          refine ⟨j, by omega, h4, h5, h6, ?_⟩
          intro k hk hk'
          by_cases e : k = i
          · rw [e]; exact h2
          · exact h7 k hk (by omega)
        · rintro ⟨j, h3, h4, h5, h6, h7⟩
          have : j ≠ i := by intro e; rw [e] at h5; exact h2 h5
          exact ⟨j, by omega, h4, h5, h6, fun k hk hk' => h7 k hk (by omega)⟩

theorem split_at {kl : List Comp} {j : Nat} {c : Comp} (h : kl[j]? = some c) : kl = kl.take j ++ c :: kl.drop (j + 1) := by
  have hj : j < kl.length := by
    rw [List.getElem?_eq_some_iff] at h; exact h.1
  have e : kl[j] = c := by rw [List.getElem?_eq_getElem hj] at h; exact Option.some.inj h
  conv => lhs; rw [← List.take_append_drop j kl]
  rw [List.drop_eq_getElem_cons hj, e]

theorem extractIdentity_iff (kl id : List Comp) : extractIdentity kl = some id ↔ Spec.Identity kl id := by
  unfold extractIdentity Spec.Identity
  split
  · simp [eq_comm]
  · rw [searchKey_iff kl _ _ (Nat.le_refl _)]
    constructor
    · rintro ⟨j, h1, h2, h3, rfl, h4⟩
      refine ⟨kl.drop (j + 1), split_at h3, by rw [List.length_drop]; omega, ?_⟩
      intro hm
      obtain ⟨k, hk⟩ := List.mem_iff_getElem?.1 hm
      rw [List.getElem?_drop] at hk
      refine h4 (j + 1 + k) (by omega) ?_ hk
      rw [List.getElem?_eq_some_iff] at hk; exact hk.1
    · rintro ⟨rest, rfl, h1, h2⟩
      refine ⟨id.length, by simp, by simp; omega, by simp, by simp, ?_⟩
      intro k hk hk' e
      rw [List.getElem?_append_right (by omega)] at e
      obtain ⟨m, hm⟩ : ∃ m, k - id.length = m + 1 := ⟨k - id.length - 1, by omega⟩
      rw [hm, List.getElem?_cons_succ] at e
      exact h2 (List.mem_of_getElem? e)

theorem extractIdentity_none (kl : List Comp) : extractIdentity kl = none ↔ ∀ id, ¬ Spec.Identity kl id := by
  constructor
  · intro h id hi
    rw [← extractIdentity_iff, h] at hi; simp at hi
  · intro h
    cases e : extractIdentity kl with
    | none => rfl
    | some id => exact absurd ((extractIdentity_iff kl id).1 e) (h id)

/-! ### Packets -/

theorem keyLocatorName_iff (si : SigInfo) (kl : List Comp) : keyLocatorName si = some kl ↔ Spec.Locates si kl := by
  unfold keyLocatorName Spec.Locates
  split
  · rename_i h; simp [h, eq_comm]
  · rename_i h
    simp only [h, false_and, false_or, ne_eq, not_false_eq_true, true_and]
    split
    · rename_i n e; simp [e]
    · rename_i e
      simp only [reduceCtorEq, false_iff]
      intro h'
      exact e kl h'

theorem two_last {α : Type} (n : List α) (h : ¬ n.length < 2) : ∃ m c d, n = m ++ [c, d] := by
  rcases List.eq_nil_or_concat n with rfl | ⟨n1, d, rfl⟩
  · simp at h
  · rcases List.eq_nil_or_concat n1 with rfl | ⟨n2, c, rfl⟩
    · simp at h
    · exact ⟨n2, c, d, by simp⟩

theorem at_neg2 {α : Type} (m : List α) (c d : α) : at' (m ++ [c, d]) (-2) = some c := by
  have := (C18_at (m ++ [c, d]) 2).2 (by omega)
  rw [show (-(2 : Nat) : Int) = -2 from rfl] at this
  rw [this]
  simp

theorem at_neg1 {α : Type} (m : List α) (c : α) : at' (m ++ [c]) (-1) = some c := by
  have := (C18_at (m ++ [c]) 1).2 (by omega)
  rw [show (-(1 : Nat) : Int) = -1 from rfl] at this
  rw [this]
  simp

theorem last2_inj {α : Type} {a b : List α} {x y z w : α} (h : a ++ [x, y] = b ++ [z, w]) : a = b ∧ x = z ∧ y = w := by
  have := List.append_inj' h rfl
  simp only [List.cons.injEq, and_true] at this
  exact this

/-- `getSignatureInfo` for a v0.2 Interest. -/
theorem signatureInfo_v02 (name : List Comp) (i : SigInfo) :
    signatureInfo name .v02 = some i ↔ Spec.Signed (.interest name .v02) i := by
  simp only [signatureInfo]
  split
  · rename_i h
    simp only [reduceCtorEq, false_iff]
    intro hs
    cases hs
    simp at h
    omega
  · rename_i h
    obtain ⟨m, c, d, rfl⟩ := two_last name h
    rw [at_neg2]
    simp only
    constructor
    · intro hh
      split at hh
      · simp at hh
      · rename_i b hb
        split at hh
        · rename_i h1
          cases hh
          exact .v02 m c d b _ hb (Prod.ext h1 rfl)
        · simp at hh
    · generalize hx : Pkt.interest (m ++ [c, d]) .v02 = x
      intro hs
      cases hs with
      | data n i => simp at hx
      | v03 n i => simp at hx
      | v02 n c' d' b i hb hw =>
        simp only [Pkt.interest.injEq, and_true] at hx
        obtain ⟨rfl, rfl, rfl⟩ := last2_inj hx
        rw [hb]
        simp only [hw, if_pos]

theorem signatureInfo_iff (name : List Comp) (sig : ISig) (i : SigInfo) :
    signatureInfo name sig = some i ↔ Spec.Signed (.interest name sig) i := by
  cases sig with
  | malformed =>
    simp only [signatureInfo, reduceCtorEq, false_iff]
    intro h; cases h
  | v03 info =>
    simp only [signatureInfo, Option.some.injEq]
    constructor
    · rintro rfl; exact .v03 name info
    · intro h; cases h; rfl
  | v02 => exact signatureInfo_v02 name i

theorem stripped_data (name : List Comp) (i : SigInfo) (n : List Comp) : strippedName name none = some n ↔ Spec.Subject (.data name i) n := by
  simp only [strippedName, Option.some.injEq]
  constructor
  · rintro rfl; exact .data name i
  · intro h; cases h; rfl

theorem stripped_v03 (name : List Comp) (i : SigInfo) (n : List Comp) :
    strippedName name (some (.v03 i)) = some n ↔ Spec.Subject (.interest name (.v03 i)) n := by
  simp only [strippedName]
  rcases List.eq_nil_or_concat name with rfl | ⟨m, c, rfl⟩
  · simp only [at', List.length_nil]
    constructor
    · intro h; simp at h
    · generalize hx : Pkt.interest [] (.v03 i) = x
      intro h
      cases h <;> simp at hx
  · rw [List.concat_eq_append, at_neg1]
    simp only
    constructor
    · intro h
      split at h
      · simp at h
      · rename_i hc
        simp at h
        subst h
        exact .v03 m c i (by omega)
    · generalize hx : Pkt.interest (m ++ [c]) (.v03 i) = x
      intro h
      cases h with
      | data => simp at hx
      | v02 => simp at hx
      | v03 n c' i' hc =>
        simp only [Pkt.interest.injEq] at hx
        have := List.append_inj' hx.1 rfl
        simp only [List.cons.injEq, and_true] at this
        obtain ⟨rfl, rfl⟩ := this
        rw [if_neg (by omega)]
        simp

theorem stripped_v02 (name : List Comp) (n : List Comp) :
    strippedName name (some .v02) = some n ↔ Spec.Subject (.interest name .v02) n := by
  simp only [strippedName]
  constructor
  · intro h
    split at h
    · simp at h
    · rename_i hl
      obtain ⟨m, c, d, rfl⟩ := two_last name hl
      simp at h
      subst h
      exact .v02 m c d
  · generalize hx : Pkt.interest name .v02 = x
    intro h
    cases h with
    | data => simp at hx
    | v03 => simp at hx
    | v02 n c d =>
      simp only [Pkt.interest.injEq, and_true] at hx
      subst hx
      simp

/-- The name rules look at, for a packet that is not malformed. -/
def subjectOf : Pkt → Option (List Comp)
  | .data name _ => strippedName name none
  | .interest name sig => strippedName name (some sig)

theorem subject_iff (x : Pkt) (hx : ∀ n, x ≠ .interest n .malformed) (n : List Comp) : subjectOf x = some n ↔ Spec.Subject x n := by
  cases x with
  | data name i => exact stripped_data name i n
  | interest name sig =>
    cases sig with
    | malformed => exact absurd rfl (hx name)
    | v03 i => exact stripped_v03 name i n
    | v02 => exact stripped_v02 name n

theorem subject_none (x : Pkt) (hx : ∀ n, x ≠ .interest n .malformed) (h : subjectOf x = none) : ∀ n, ¬ Spec.Subject x n := by
  intro n hn
  rw [← subject_iff x hx, h] at hn; simp at hn

theorem Spec.subject_unique {x : Pkt} {a b : List Comp} (h1 : Spec.Subject x a) (h2 : Spec.Subject x b) : a = b := by
  have hx : ∀ n, x ≠ .interest n .malformed := by
    rintro n rfl; cases h1
  have e1 := (subject_iff x hx a).2 h1
  rw [(subject_iff x hx b).2 h2] at e1
  exact (Option.some.inj e1).symm

end Ndn.Config
