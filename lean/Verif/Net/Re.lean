import Verif.Hex.Model
/-
The fragment of `std::regex` (ECMAScript grammar, `std::regex_match`) that FaceUri parsing uses, as a backtracking matcher.
The regular expressions themselves are transcribed in Net/Model.lean; the matcher stands for the C++ library.
-/
namespace Ndn.Net

/-- The sub-matches, by number; an unmatched group is the empty string (`sub_match::str()`). -/
abbrev Caps := Nat → Bytes

def Caps.set (m : Caps) (i : Nat) (s : Bytes) : Caps := fun j => if j = i then s else m j

/-- Regular expressions: a character class, a sequence, a greedy repetition of a character class, a greedy
optional part, a numbered group and the empty expression (also `^` and `$`, which `regex_match` implies). -/
inductive Re where
  | cls (p : UInt8 → Bool)
  | seq (a b : Re)
  | many (p : UInt8 → Bool)
  | opt (r : Re)
  | cap (i : Nat) (r : Re)
  | eps

/-- `x*` with backtracking: the longest repetition is tried first. -/
def manyRun (p : UInt8 → Bool) (k : Bytes → Caps → Option Caps) : Bytes → Caps → Option Caps
  | [], m => k [] m
  | c :: s, m => if p c then (manyRun p k s m).or (k (c :: s) m) else k (c :: s) m

/-- Backtracking match of a prefix of the text, with `k` what has to match the rest. -/
def Re.run : Re → (Bytes → Caps → Option Caps) → Bytes → Caps → Option Caps
  | .cls p, k, s, m => match s with
    | [] => none
    | c :: s' => if p c then k s' m else none
  | .seq a b, k, s, m => a.run (fun s' m' => b.run k s' m') s m
  | .many p, k, s, m => manyRun p k s m
  | .opt r, k, s, m => (r.run k s m).or (k s m)
  | .cap i r, k, s, m => r.run (fun s' m' => k s' (m'.set i (s.take (s.length - s'.length)))) s m
  | .eps, k, s, m => k s m

/-- `std::regex_match`: the whole text must match; the sub-matches of the first match found. -/
def Re.full (r : Re) (s : Bytes) : Option Caps :=
  r.run (fun rest m => if rest = [] then some m else none) s (fun _ => [])

/-- `x+`. -/
def Re.plus (p : UInt8 → Bool) : Re := .seq (.cls p) (.many p)

/-- A literal text. -/
def Re.lit : Bytes → Re
  | [] => .eps
  | c :: s => .seq (.cls (· == c)) (Re.lit s)

/-- `(?:x){n}`. -/
def Re.times : Nat → Re → Re
  | 0, _ => .eps
  | n + 1, r => .seq r (Re.times n r)

/-! ### What a regular expression means -/

/-- `r` matches exactly the text `s`, turning the sub-matches `m` into `m'`. -/
def Re.M : Re → Bytes → Caps → Caps → Prop
  | .cls p, s, m, m' => ∃ c, s = [c] ∧ p c = true ∧ m' = m
  | .seq a b, s, m, m' => ∃ s₁ s₂ m₁, s = s₁ ++ s₂ ∧ a.M s₁ m m₁ ∧ b.M s₂ m₁ m'
  | .many p, s, m, m' => (∀ c ∈ s, p c = true) ∧ m' = m
  | .opt r, s, m, m' => r.M s m m' ∨ (s = [] ∧ m' = m)
  | .cap i r, s, m, m' => ∃ m₁, r.M s m m₁ ∧ m' = m₁.set i s
  | .eps, s, m, m' => s = [] ∧ m' = m

theorem manyRun_sound (p : UInt8 → Bool) (k : Bytes → Caps → Option Caps) (s : Bytes) (m x : Caps)
    (h : manyRun p k s m = some x) : ∃ s₁ s₂, s = s₁ ++ s₂ ∧ (∀ c ∈ s₁, p c = true) ∧ k s₂ m = some x := by
  induction s with
  | nil => exact ⟨[], [], rfl, (by simp), h⟩
  | cons c s ih =>
    simp only [manyRun] at h
    split at h
    · rename_i hp
      rw [Option.or_eq_some_iff] at h
      rcases h with h | ⟨_, h⟩
      · obtain ⟨s₁, s₂, rfl, h1, h2⟩ := ih h
        exact ⟨c :: s₁, s₂, rfl, (by simpa [hp] using h1), h2⟩
      · exact ⟨[], c :: s, rfl, (by simp), h⟩
    · exact ⟨[], c :: s, rfl, (by simp), h⟩

theorem Re.run_sound (r : Re) : ∀ (k : Bytes → Caps → Option Caps) (s : Bytes) (m x : Caps),
    r.run k s m = some x → ∃ s₁ s₂ m', s = s₁ ++ s₂ ∧ r.M s₁ m m' ∧ k s₂ m' = some x := by
  induction r with
  | cls p =>
    intro k s m x h
    cases s with
    | nil => simp [Re.run] at h
    | cons c s =>
      simp only [Re.run] at h
      split at h
      · rename_i hp
        exact ⟨[c], s, m, rfl, ⟨c, rfl, hp, rfl⟩, h⟩
      · simp at h
  | seq a b iha ihb =>
    intro k s m x h
    obtain ⟨s₁, s₂, m₁, rfl, h1, h2⟩ := iha _ _ _ _ h
    obtain ⟨s₃, s₄, m₂, rfl, h3, h4⟩ := ihb _ _ _ _ h2
    exact ⟨s₁ ++ s₃, s₄, m₂, (by simp), ⟨s₁, s₃, m₁, rfl, h1, h3⟩, h4⟩
  | many p =>
    intro k s m x h
    obtain ⟨s₁, s₂, h1, h2, h3⟩ := manyRun_sound p k s m x h
    exact ⟨s₁, s₂, m, h1, ⟨h2, rfl⟩, h3⟩
  | opt r ih =>
    intro k s m x h
    simp only [Re.run] at h
    rw [Option.or_eq_some_iff] at h
    rcases h with h | ⟨_, h⟩
    · obtain ⟨s₁, s₂, m', h1, h2, h3⟩ := ih _ _ _ _ h
      exact ⟨s₁, s₂, m', h1, Or.inl h2, h3⟩
    · exact ⟨[], s, m, rfl, Or.inr ⟨rfl, rfl⟩, h⟩
  | cap i r ih =>
    intro k s m x h
    obtain ⟨s₁, s₂, m', rfl, h2, h3⟩ := ih _ _ _ _ h
    refine ⟨s₁, s₂, m'.set i s₁, rfl, ⟨m', h2, rfl⟩, ?_⟩
    have : (s₁ ++ s₂).take ((s₁ ++ s₂).length - s₂.length) = s₁ := by simp
    rw [this] at h3
    exact h3
  | eps =>
    intro k s m x h
    exact ⟨[], s, m, rfl, ⟨rfl, rfl⟩, h⟩

theorem manyRun_complete (p : UInt8 → Bool) (k : Bytes → Caps → Option Caps) (s₁ s₂ : Bytes) (m : Caps)
    (hp : ∀ c ∈ s₁, p c = true) (h : (k s₂ m).isSome) : (manyRun p k (s₁ ++ s₂) m).isSome := by
  induction s₁ with
  | nil =>
    cases s₂ with
    | nil => exact h
    | cons c s =>
      simp only [List.nil_append, manyRun]
      split
      · simp [h]
      · exact h
  | cons c s ih =>
    simp only [List.cons_append, manyRun]
    rw [if_pos (hp c (by simp))]
    have := ih (fun d hd => hp d (by simp [hd]))
    simp [this]

theorem Re.run_complete (r : Re) : ∀ (k : Bytes → Caps → Option Caps) (s₁ s₂ : Bytes) (m m' : Caps),
    r.M s₁ m m' → (k s₂ m').isSome → (r.run k (s₁ ++ s₂) m).isSome := by
  induction r with
  | cls p =>
    intro k s₁ s₂ m m' h hk
    obtain ⟨c, rfl, hp, rfl⟩ := h
    simp [Re.run, hp, hk]
  | seq a b iha ihb =>
    intro k s₁ s₂ m m' h hk
    obtain ⟨t₁, t₂, m₁, rfl, h1, h2⟩ := h
    rw [List.append_assoc]
    exact iha _ _ _ _ _ h1 (ihb _ _ _ _ _ h2 hk)
  | many p =>
    intro k s₁ s₂ m m' h hk
    obtain ⟨h1, rfl⟩ := h
    exact manyRun_complete p k s₁ s₂ _ h1 hk
  | opt r ih =>
    intro k s₁ s₂ m m' h hk
    simp only [Re.run]
    rcases h with h | ⟨rfl, rfl⟩
    · have := ih k _ s₂ _ _ h hk
      simp [this]
    · simp only [List.nil_append, Option.isSome_or, hk, Bool.or_true]
  | cap i r ih =>
    intro k s₁ s₂ m m' h hk
    obtain ⟨m₁, h1, rfl⟩ := h
    refine ih _ _ s₂ _ _ h1 ?_
    have : (s₁ ++ s₂).take ((s₁ ++ s₂).length - s₂.length) = s₁ := by simp
    rw [this]
    exact hk
  | eps =>
    intro k s₁ s₂ m m' h hk
    obtain ⟨rfl, rfl⟩ := h
    exact hk

theorem Re.full_sound {r : Re} {s : Bytes} {x : Caps} (h : r.full s = some x) : r.M s (fun _ => []) x := by
  obtain ⟨s₁, s₂, m', rfl, h1, h2⟩ := Re.run_sound _ _ _ _ _ h
  split at h2
  · rename_i h3
    injection h2 with h2
    subst h3 h2
    simpa using h1
  · simp at h2

/-- A match is found exactly when there is one. -/
theorem Re.full_none_iff (r : Re) (s : Bytes) : r.full s = none ↔ ¬ ∃ x, r.M s (fun _ => []) x := by
  constructor
  · rintro h ⟨x, hx⟩
    have := Re.run_complete r (fun rest m => if rest = [] then some m else none) s [] _ _ hx (by simp)
    rw [List.append_nil] at this
    unfold Re.full at h
    simp [h] at this
  · intro h
    cases hf : r.full s with
    | none => rfl
    | some x => exact absurd ⟨x, Re.full_sound hf⟩ h

/-- When the sub-matches are determined by the text, the first match is the only one. -/
theorem Re.full_iff {r : Re} {s : Bytes} (hu : ∀ x y, r.M s (fun _ => []) x → r.M s (fun _ => []) y → x = y) (x : Caps) :
    r.full s = some x ↔ r.M s (fun _ => []) x := by
  constructor
  · exact Re.full_sound
  · intro h
    cases hf : r.full s with
    | none => exact absurd ⟨x, h⟩ ((Re.full_none_iff r s).1 hf)
    | some y => rw [hu _ _ (Re.full_sound hf) h]

end Ndn.Net
