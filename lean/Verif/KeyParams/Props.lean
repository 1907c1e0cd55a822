import Verif.KeyParams.Model
/-
Property theorems: C155 (parameters for the creation of keys).
-/
namespace Ndn.KeyParams
open Ndn.Name

/-! ### Specification -/

/-- The sizes, in bits, a key of a type may have. -/
def Supported : KeyType → Nat → Prop
  | .rsa, n => 2048 ≤ n ∧ n ≤ 16384
  | .ec, n => n = 224 ∨ n = 256 ∨ n = 384 ∨ n = 521
  | .aes, n => n = 128 ∨ n = 192 ∨ n = 256
  | .hmac, n => 0 < n ∧ 8 ∣ n

/-- An object a program can have: made by a constructor, and given key ids since. -/
def Made (ty : KeyType) (m : Make) (ids : List Comp) (p : Params) : Prop := ∃ q, make ty m = .ok q ∧ p = setAll q ids

/-- Size, type of id and id of an object as made and as set since. -/
def Kept : Make → List Comp → Params → Prop
  | .withId id n, ids, p => p.size = n ∧ p.idType = .user ∧ p.id = ids.getLast?.getD id
  | .withType n t, ids, p => p.size = n ∧ p.idType = t ∧ t ≠ .user ∧ p.id = ids.getLast?.getD noId

/-- What names a key that is not an HMAC key. -/
def NamedBy (has : Comp → Bool) : Make → List Comp → Naming → Prop
  | .withId id _, ids, n => n = .given (ids.getLast?.getD id) ∧ has (ids.getLast?.getD id) = false
  | .withType _ .sha256, _, n => n = .publicDigest
  | .withType _ _, _, n => n = .random

/-! ### Lemmas -/

theorem check_iff (ty : KeyType) (n k : Nat) : checkKeySize ty n = .ok k ↔ Supported ty n ∧ k = n := by
  cases ty <;> simp only [checkKeySize, Supported]
  · split <;> simp at * <;> omega
  · split <;> simp at * <;> omega
  · split <;> simp at * <;> omega
  · split <;> simp at * <;> omega

theorem check_error (ty : KeyType) (n : Nat) (h : ¬ Supported ty n) : checkKeySize ty n = .error .params := by
  cases hc : checkKeySize ty n with
  | ok k => exact absurd ((check_iff ty n k).mp hc).1 h
  | error e => cases ty <;> simp only [checkKeySize] at hc <;> split at hc <;> first | (cases hc; rfl) | cases hc

theorem check_ok (ty : KeyType) (n : Nat) (h : Supported ty n) : checkKeySize ty n = .ok n := (check_iff ty n n).mpr ⟨h, rfl⟩

theorem setAll_eq (ids : List Comp) : ∀ p : Params, setAll p ids = { p with id := ids.getLast?.getD p.id } := by
  induction ids with
  | nil => intro p; rfl
  | cons c l ih =>
    intro p
    show setAll (p.setKeyId c) l = _
    rw [ih]
    cases l with
    | nil => rfl
    | cons d l => simp [Params.setKeyId, List.getLast?_cons_cons, List.getLast?_cons]

/-! ### Theorems -/

/-- With a key id: an object results exactly for a supported size and an id that is not empty, with the id and the size given;
an unsupported size is an error. -/
theorem C155_with_id (ty : KeyType) (id : Comp) (n : Nat) :
    (∀ p, withId ty id n = .ok p ↔ Supported ty n ∧ id.value ≠ [] ∧ p = ⟨ty, .user, id, n⟩) ∧
    (id.value ≠ [] → ¬ Supported ty n → withId ty id n = .error .params) := by
  unfold withId
  by_cases h : id.value = []
  · simp [h]
  · by_cases hs : Supported ty n
    · simp [h, hs, check_ok ty n hs, eq_comm]
    · simp [h, hs, check_error ty n hs]

/-- Without: an object results exactly for a supported size and a type of id other than the user's. -/
theorem C155_with_type (ty : KeyType) (n : Nat) (t : IdType) :
    (∀ p, withType ty n t = .ok p ↔ Supported ty n ∧ t ≠ .user ∧ p = ⟨ty, t, noId, n⟩) ∧
    (t ≠ .user → ¬ Supported ty n → withType ty n t = .error .params) := by
  unfold withType
  by_cases h : t = .user
  · simp [h]
  · by_cases hs : Supported ty n
    · simp [h, hs, check_ok ty n hs, eq_comm]
    · simp [h, hs, check_error ty n hs]

/-- The size a constructor takes when none is given is supported: 2048 bits for RSA, 256 for elliptic curves and HMAC, 128 for
AES. -/
theorem C155_defaults (ty : KeyType) : Supported ty (defaultSize ty) ∧
    defaultSize ty = (match ty with | .rsa => 2048 | .ec => 256 | .aes => 128 | .hmac => 256) := by
  cases ty <;> simp [Supported, defaultSize]

/-- After any calls of `setKeyId`, an object has the type and a supported size it was made with, the key id type it was made
with, and the id given last. -/
theorem C155_kept (ty : KeyType) (m : Make) (ids : List Comp) (p : Params) (h : Made ty m ids p) :
    p.ty = ty ∧ Supported ty p.size ∧ Kept m ids p := by
  obtain ⟨q, hq, rfl⟩ := h
  rw [setAll_eq]
  cases m with
  | withId id n =>
    obtain ⟨h1, -, rfl⟩ := ((C155_with_id ty id n).1 q).mp hq
    exact ⟨rfl, h1, rfl, rfl, rfl⟩
  | withType n t =>
    obtain ⟨h1, h2, rfl⟩ := ((C155_with_type ty n t).1 q).mp hq
    exact ⟨rfl, h1, rfl, rfl, h2, rfl⟩

example : ∃ p, Made .ec (.withId ⟨8, [1]⟩ 384) [⟨8, [2]⟩, ⟨8, [3]⟩] p := ⟨_, _, rfl, rfl⟩

/-- What is generated from an object is of its type and has as many bits as it says; the memory back-end makes keys of all
types but AES, the file back-end of RSA and elliptic curves; the others are an invalid argument, and the only other error is a
key id already in use. -/
theorem C155_generates (ty : KeyType) (m : Make) (ids : List Comp) (p : Params) (h : Made ty m ids p) (b : Back) (has : Comp → Bool) :
    (∀ g n, create b has p = .ok (g, n) →
      (ty = .rsa ∧ g = .rsa p.size) ∨ (ty = .ec ∧ g = .ec p.size) ∨ (ty = .hmac ∧ b = .memory ∧ ∃ k, g = .raw k ∧ 8 * k = p.size)) ∧
    (∀ e, create b has p = .error e →
      (e = .tpm ∧ ty ≠ .hmac ∧ p.idType = .user ∧ has p.id = true) ∨ (e = .invalid ∧ (ty = .aes ∨ (ty = .hmac ∧ b = .file)))) := by
  obtain ⟨h1, h2, -⟩ := C155_kept ty m ids p h
  subst h1
  unfold create
  constructor
  · intro g n
    split
    · intro hc; cases hc
    · split
      · rename_i hs
        intro hc
        cases ht : p.ty with
        | rsa =>
          simp only [generate, ht] at hc
          injection hc with hc; injection hc with hc _
          exact .inl ⟨rfl, hc.symm⟩
        | ec =>
          rw [ht] at h2
          simp only [Supported] at h2
          simp only [generate, ht, if_pos h2] at hc
          injection hc with hc; injection hc with hc _
          exact .inr (.inl ⟨rfl, hc.symm⟩)
        | hmac =>
          rw [ht] at h2 hs
          simp only [Supported] at h2
          simp only [generate, ht] at hc
          injection hc with hc; injection hc with hc _
          exact .inr (.inr ⟨rfl, by cases b <;> simp_all [Back.supports], _, hc.symm, by omega⟩)
        | aes => rw [ht] at hs; cases b <;> simp [Back.supports] at hs
      · intro hc; cases hc
  · intro e
    split
    · rename_i hx
      intro hc; cases hc; exact .inl ⟨rfl, hx⟩
    · split
      · intro hc
        cases ht : p.ty with
        | rsa => simp [generate, ht] at hc
        | ec =>
          rw [ht] at h2
          simp only [Supported] at h2
          simp [generate, ht, if_pos h2] at hc
        | hmac => simp [generate, ht] at hc
        | aes =>
          rename_i hs
          rw [ht] at hs; cases b <;> simp [Back.supports] at hs
      · rename_i hs
        intro hc; cases hc
        refine .inr ⟨rfl, ?_⟩
        cases ht : p.ty <;> cases b <;> simp [Back.supports, ht] at hs ⊢

/-- A key that is not an HMAC key, made from an object with the user's id, is named by the id given last; others by the digest
or the number asked for. An HMAC key is named by its digest. -/
theorem C155_named (ty : KeyType) (m : Make) (ids : List Comp) (p : Params) (h : Made ty m ids p) (b : Back) (has : Comp → Bool)
    (g : Gen) (n : Naming) (hc : create b has p = .ok (g, n)) :
    if ty = .hmac then n = .secretDigest else NamedBy has m ids n := by
  obtain ⟨h1, -, h3⟩ := C155_kept ty m ids p h
  subst h1
  unfold create at hc
  split at hc
  · cases hc
  · rename_i hx
    split at hc
    · split at hc
      · cases hc
      · injection hc with hc; injection hc with _ hc
        by_cases ht : p.ty = .hmac
        · rw [if_pos ht] at hc ⊢; exact hc.symm
        · rw [if_neg ht] at hc ⊢
          cases m with
          | withId id k =>
            obtain ⟨-, h4, h5⟩ := h3
            simp only [h4] at hc
            simp only [NamedBy]
            rw [← h5]
            refine ⟨hc.symm, ?_⟩
            cases hh : has p.id with
            | false => rfl
            | true => exact absurd ⟨ht, h4, hh⟩ hx
          | withType k t =>
            obtain ⟨-, h4, h5, -⟩ := h3
            cases t with
            | user => exact absurd rfl h5
            | sha256 => simp only [h4] at hc; exact hc.symm
            | random => simp only [h4] at hc; exact hc.symm
    · cases hc

example : create .memory (fun _ => false) (setAll ⟨.ec, .user, ⟨8, [1]⟩, 256⟩ [⟨8, [2]⟩]) = .ok (.ec 256, .given ⟨8, [2]⟩) := rfl

/-- The claim: the key id given last with `setKeyId` names the key. -/
def C155_set_id_claim : Prop := ∀ ty m id p b has g n, Made ty m [id] p → create b has p = .ok (g, n) → n = .given id

/-- `setKeyId` on parameters made without an id leaves the type of id as it is: the id is ignored, and the key is named by a
random number or a digest. -/
theorem C155_set_id_counterexample : ¬ C155_set_id_claim := by
  intro h
  have := h .rsa (.withType 2048 .random) ⟨8, [1]⟩ _ .memory (fun _ => false) _ _ ⟨_, rfl, rfl⟩ rfl
  cases this

/-- It does for parameters made with an id, and of a type other than HMAC. -/
theorem C155_set_id_partial (ty : KeyType) (hty : ty ≠ .hmac) (id0 id : Comp) (k : Nat) (p : Params) (b : Back) (has : Comp → Bool)
    (g : Gen) (n : Naming) (h : Made ty (.withId id0 k) [id] p) (hc : create b has p = .ok (g, n)) : n = .given id := by
  have := C155_named ty _ _ p h b has g n hc
  rw [if_neg hty] at this
  exact this.1

example : ∃ p g n, Made .rsa (.withId ⟨8, [1]⟩ 4096) [⟨8, [2]⟩] p ∧ create .file (fun _ => false) p = .ok (g, n) := ⟨_, _, _, ⟨_, rfl, rfl⟩, rfl⟩

/-- The claim: an id given by the user for a key is not empty. -/
def C155_not_empty_claim : Prop := ∀ ty m ids p, Made ty m ids p → p.idType = .user → p.id.value ≠ []

/-- The constructor asserts that the id is not empty, `setKeyId` does not test it. -/
theorem C155_not_empty_counterexample : ¬ C155_not_empty_claim := by
  intro h
  exact h .rsa (.withId ⟨8, [1]⟩ 2048) [⟨8, []⟩] _ ⟨_, rfl, rfl⟩ rfl rfl

/-- It is not if none given since the construction is. -/
theorem C155_not_empty_partial (ty : KeyType) (m : Make) (ids : List Comp) (p : Params) (h : Made ty m ids p) (hu : p.idType = .user)
    (hi : ∀ c ∈ ids, c.value ≠ []) : p.id.value ≠ [] := by
  obtain ⟨-, -, h3⟩ := C155_kept ty m ids p h
  obtain ⟨q, hq, -⟩ := h
  cases m with
  | withId id n =>
    rw [h3.2.2]
    cases hl : ids.getLast? with
    | none => exact (((C155_with_id ty id n).1 q).mp hq).2.1
    | some c => exact hi c (List.mem_of_getLast? hl)
  | withType n t => exact absurd (h3.2.1.symm.trans hu) h3.2.2.1

example : ∃ p, Made .rsa (.withId ⟨8, [1]⟩ 2048) [⟨8, [7]⟩] p ∧ p.idType = .user := ⟨_, ⟨_, rfl, rfl⟩, rfl⟩

end Ndn.KeyParams
