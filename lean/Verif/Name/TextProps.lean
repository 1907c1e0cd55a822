import Verif.Name.TextLemmas
import Verif.Name.EditProps
/-
C154: what the text of a component and of a name means. C16: the assigned types and markers.
-/
namespace Ndn.Name
open Spec Tlv Hex.Spec

/-- C154: `Component::fromUri` accepts a text exactly when it stands for a component, and yields that component. -/
theorem C154_component (s : Bytes) (c : Comp) : compFromUri s = some c ↔ Denotes s c := compFromUri_iff s c

/-- C154: a text stands for at most one component. -/
theorem C154_unique (s : Bytes) (c d : Comp) (hc : Denotes s c) (hd : Denotes s d) : c = d := by
  have h1 := (compFromUri_iff _ _).mpr hc
  rw [(compFromUri_iff _ _).mpr hd] at h1
  cases h1; rfl

/-- C154: a text that begins with a single slash is cut at its slashes; the name has, in order, the components the pieces
stand for, one empty piece after the last slash not counting; the text is refused if a piece stands for no component. -/
theorem C154_path (p : Bytes) (ps : List Bytes) (hp : (47 : UInt8) ∉ p) (hps : ∀ q ∈ ps, (47 : UInt8) ∉ q)
    (hne : p ≠ [] ∨ ps = []) (n : List Comp) :
    fromUri (47 :: joined p ps) = some n ↔ DenoteAll (compTexts (p :: ps)) n := by
  have hs : stripAuthority (47 :: joined p ps) = some (joined p ps) := by
    cases p with
    | nil =>
      rcases hne with h | h
      · exact absurd rfl h
      · subst h; rfl
    | cons x r =>
      have hx : x ≠ 47 := fun e => hp (by simp [e])
      simp [joined, stripAuthority, hx]
  unfold fromUri
  rw [if_neg (by simp), stripScheme_slash, hs]
  exact uriLoop_iff ps hps p _ n hp (Nat.le_refl _)

theorem mem_split (a : UInt8) (s : Bytes) (h : a ∈ s) : ∃ p r, s = p ++ a :: r ∧ a ∉ p := by
  induction s with
  | nil => simp at h
  | cons x s ih =>
    by_cases hx : x = a
    · exact ⟨[], s, by simp [hx], by simp⟩
    · obtain ⟨p, r, rfl, hp⟩ := ih (by rcases List.mem_cons.mp h with h | h; exact absurd h.symm hx; exact h)
      refine ⟨x :: p, r, rfl, ?_⟩
      intro hm
      rcases List.mem_cons.mp hm with h | h
      · exact hx h.symm
      · exact hp h

/-- C154: the leading slash may be left out if the first piece is not empty and has no colon. -/
theorem C154_relative (p : Bytes) (ps : List Bytes) (hp : (47 : UInt8) ∉ p) (hc : (58 : UInt8) ∉ p)
    (hne : p ≠ []) : fromUri (joined p ps) = fromUri (47 :: joined p ps) := by
  have hnil : joined p ps ≠ [] := by
    unfold joined; intro h; exact hne (List.append_eq_nil_iff.mp h).1
  have h1 : stripScheme (joined p ps) = joined p ps := by
    unfold stripScheme
    by_cases h58 : (58 : UInt8) ∈ joined p ps
    · rw [if_pos h58, if_neg]
      cases ps with
      | nil => simp [joined] at h58; exact absurd h58 hc
      | cons q ps =>
        have hj : joined p (q :: ps) = p ++ 47 :: joined q ps := by simp [joined]
        rw [hj] at h58 ⊢
        have hm : (58 : UInt8) ∈ 47 :: joined q ps := by
          rcases List.mem_append.mp h58 with h | h
          · exact absurd h hc
          · exact h
        obtain ⟨a, r, ha, hna⟩ := mem_split 58 _ hm
        rw [(takeWhile_stop 47 p (joined q ps) hp).1]
        rintro (h | h)
        · exact h (by simp)
        · rw [ha, ← List.append_assoc] at h
          rw [(takeWhile_stop 58 (p ++ a) r (by simp [hc, hna])).1] at h
          simp at h; omega
    · rw [if_neg h58]
  obtain ⟨x, r, hx⟩ : ∃ x r, p = x :: r := by
    cases p with
    | nil => exact absurd rfl hne
    | cons x r => exact ⟨x, r, rfl⟩
  have hx47 : x ≠ 47 := fun e => hp (by simp [hx, e])
  have h2 : stripAuthority (joined p ps) = some (joined p ps) := by
    rw [hx]; simp only [joined, List.cons_append]
    unfold stripAuthority
    split
    · rename_i h; injection h with h _; exact absurd h hx47
    · rename_i h; injection h with h _; exact absurd h hx47
    · rfl
  have h3 : stripAuthority (47 :: joined p ps) = some (joined p ps) := by
    rw [hx]; simp [joined, stripAuthority, hx47]
  unfold fromUri
  rw [if_neg hnil, if_neg (by simp), h1, stripScheme_slash, h2, h3]

/-- C154: a slash at the end of a name's text changes nothing. -/
theorem C154_trailing (p : Bytes) (ps : List Bytes) (hp : (47 : UInt8) ∉ p) (hps : ∀ q ∈ ps, (47 : UInt8) ∉ q)
    (hne : p ≠ []) (hl : ∀ q ∈ ps.getLast?, q ≠ []) : fromUri (47 :: joined p ps ++ [47]) = fromUri (47 :: joined p ps) := by
  have hj : 47 :: joined p ps ++ [47] = 47 :: joined p (ps ++ [[]]) := by simp [joined]
  have hc : ∀ (ps : List Bytes) (p : Bytes), (∀ q ∈ (p :: ps).getLast?, q ≠ []) →
      compTexts (p :: (ps ++ [[]])) = compTexts (p :: ps) := by
    intro ps
    induction ps with
    | nil =>
      intro p h
      have : p ≠ [] := h p (by simp)
      simp [compTexts, this]
    | cons q ps ih =>
      intro p h
      rw [List.cons_append]
      simp only [compTexts]
      rw [ih q (by simpa using h)]
  have hlast : ∀ q ∈ (p :: ps).getLast?, q ≠ [] := by
    cases ps with
    | nil => simpa using hne
    | cons a b => simpa using hl
  apply Option.ext
  intro n
  rw [hj, C154_path p (ps ++ [[]]) hp ?_ (Or.inl hne), C154_path p ps hp hps (Or.inl hne), hc _ _ hlast]
  intro q hq
  rcases List.mem_append.mp hq with h | h
  · exact hps q h
  · simp at h; subst h; simp

/-- C154: a component of periods only is written with three more; one or two periods, or none, stand for no component. -/
theorem C154_periods (k : Nat) :
    compFromUri (List.replicate k 46) = if k < 3 then none else some ⟨8, List.replicate (k - 3) 46⟩ := by
  have hu : ∀ k, Hex.unescape (List.replicate k 46) = List.replicate k 46 := by
    intro k
    induction k with
    | zero => rfl
    | succ k ih => rw [List.replicate_succ, Hex.unescape_cons_ne _ _ (by decide), ih]
  unfold compFromUri
  rw [if_pos (by intro h; have := List.eq_of_mem_replicate h; revert this; decide)]
  unfold parseEscaped
  simp only [hu]
  rw [if_pos (by simp)]
  simp only [List.length_replicate]
  by_cases h : k < 3
  · rw [if_pos h, if_pos h]
  · rw [if_neg h, if_neg h, mkComp_iff]
    refine ⟨?_, (by decide : 1 ≤ 8), (by decide : 8 ≤ 65535), fun h => by simp at h⟩
    rw [List.take_replicate, show min (k - 3) k = k - 3 by omega]

/-- `/a//b/` has an empty piece and is refused; `/a/b/`, `a/b` and `/a/b` are the same name. -/
example : fromUri (text "/a//b/") = none ∧ fromUri (text "/a/b/") = some [⟨8, [97]⟩, ⟨8, [98]⟩] ∧
    fromUri (text "a/b") = some [⟨8, [97]⟩, ⟨8, [98]⟩] ∧ fromUri (text "/a/b") = some [⟨8, [97]⟩, ⟨8, [98]⟩] ∧
    text "/a/b/" = 47 :: joined [97] [[98], []] ∧ compTexts [[97], [98], []] = [[97], [98]] := by decide +kernel

example : Denotes (text "seq=300") ⟨58, [1, 44]⟩ ∧ Denotes (text "253=...") ⟨253, []⟩ ∧ Denotes (text "%41%4") ⟨8, [65, 37, 52]⟩ := by
  simp only [← compFromUri_iff]; decide +kernel

/-- C16: the type (under the typed convention) and the marker octet (under the marker convention) assigned to each kind. -/
theorem C16_assigned (s : Settings) (n : Nat) (hn : n < 2 ^ 64) : ∃ v, ShortestNumber v n ∧
    (s.encodeMarker = false →
      Conv.segment.from s n = some ⟨50, v⟩ ∧ Conv.byteOffset.from s n = some ⟨52, v⟩ ∧ Conv.version.from s n = some ⟨54, v⟩ ∧
      Conv.timestamp.from s n = some ⟨56, v⟩ ∧ Conv.sequence.from s n = some ⟨58, v⟩) ∧
    (s.encodeMarker = true →
      Conv.segment.from s n = some ⟨8, 0x00 :: v⟩ ∧ Conv.byteOffset.from s n = some ⟨8, 0xFB :: v⟩ ∧
      Conv.version.from s n = some ⟨8, 0xFD :: v⟩ ∧ Conv.timestamp.from s n = some ⟨8, 0xFC :: v⟩ ∧
      Conv.sequence.from s n = some ⟨8, 0xFE :: v⟩) := by
  refine ⟨_, (shortest_iff _ n hn).mpr rfl, ?_, ?_⟩
  · intro h
    simp only [Conv.from_eq, h, convComp]
    exact ⟨rfl, rfl, rfl, rfl, rfl⟩
  · intro h
    simp only [Conv.from_eq, h, convComp]
    exact ⟨rfl, rfl, rfl, rfl, rfl⟩

end Ndn.Name
