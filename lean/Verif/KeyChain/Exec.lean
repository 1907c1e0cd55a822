import Verif.Pib.FrontRun
import Verif.KeyChain.Model
/-
Running the functions of the key chain on the specification of the PIB.
-/
namespace Ndn.KeyChain
open Ndn.Name Ndn.Tlv Ndn.Block Ndn.Packet Ndn.Pib Ndn.Pib.Spec

variable {σ K α β : Type} {b : Backend σ} {R : σ → View → Prop} {A : View → PName → Prop}
  {T : View → List (PName × Option K) → Prop}

/-- The states passed on the way from `s` to `s'` meet `T`. -/
def TrailOk (R : σ → View → Prop) (T : View → List (PName × Option K) → Prop) (s s' : St σ K) : Prop :=
  ∀ e ∈ s'.trail, e ∈ s.trail ∨ ∃ v, R e.1 v ∧ T v e.2

theorem TrailOk.refl (s : St σ K) : TrailOk R T s s := fun _ h => Or.inl h

theorem TrailOk.trans {s1 s2 s3 : St σ K} (h : TrailOk R T s1 s2) (h' : TrailOk R T s2 s3) : TrailOk R T s1 s3 := by
  intro e he
  rcases h' e he with h1 | h1
  · exact h e h1
  · exact Or.inr h1

/-- Running `m` in `s`, whose PIB is described by `w`, ends as `Q` says. -/
def Ex (R : σ → View → Prop) (T : View → List (PName × Option K) → Prop) (s : St σ K) (m : KM σ K α)
    (Q : Except Err α → World → Tpm K → Prop) : Prop :=
  ∃ w', Sim R (m s).2.pib w' ∧ Q (m s).1 w' (m s).2.tpm ∧ TrailOk R T s (m s).2

theorem Ex.mono {s : St σ K} {m : KM σ K α} {Q Q' : Except Err α → World → Tpm K → Prop} (h : Ex R T s m Q)
    (hq : ∀ r w t, Q r w t → Q' r w t) : Ex R T s m Q' := by
  obtain ⟨w', h1, h2, h3⟩ := h
  exact ⟨w', h1, hq _ _ _ h2, h3⟩

theorem ex_pure {s : St σ K} {w : World} (hs : Sim R s.pib w) (a : α) {Q : Except Err α → World → Tpm K → Prop}
    (hq : Q (.ok a) w s.tpm) : Ex R T s (pure a) Q := ⟨w, hs, hq, .refl _⟩

theorem ex_raise {s : St σ K} {w : World} (hs : Sim R s.pib w) (e : Err) {Q : Except Err α → World → Tpm K → Prop}
    (hq : Q (.error e) w s.tpm) : Ex R T s (raise e) Q := ⟨w, hs, hq, .refl _⟩

theorem bind_ok {s s' : St σ K} {m : KM σ K α} {a : α} (hm : m s = (.ok a, s')) (f : α → KM σ K β) : (m >>= f) s = f a s' := by
  show (fun s => match m s with
    | (.ok a, s') => f a s'
    | (.error e, s') => (.error e, s')) s = _
  dsimp only
  rw [hm]

theorem ex_bind {s : St σ K} {m : KM σ K α} {f : α → KM σ K β} {Q1 : Except Err α → World → Tpm K → Prop}
    {Q : Except Err β → World → Tpm K → Prop} (h : Ex R T s m Q1)
    (h1 : ∀ a w1 (s1 : St σ K), Sim R s1.pib w1 → Q1 (.ok a) w1 s1.tpm → Ex R T s1 (f a) Q)
    (h2 : ∀ e w1 t1, Q1 (.error e) w1 t1 → Q (.error e) w1 t1) : Ex R T s (m >>= f) Q := by
  obtain ⟨w', k1, k2, k3⟩ := h
  show Ex R T s (fun s => match m s with
    | (.ok a, s') => f a s'
    | (.error e, s') => (.error e, s')) Q
  unfold Ex
  dsimp only
  cases hm : m s with
  | mk r s' =>
    rw [hm] at k1 k2 k3
    cases r with
    | error e => exact ⟨w', k1, h2 _ _ _ k2, k3⟩
    | ok a =>
      obtain ⟨w2, l1, l2, l3⟩ := h1 a w' s' k1 k2
      exact ⟨w2, l1, l2, k3.trans l3⟩

theorem ex_bindAt {s : St σ K} {m : KM σ K α} {a : α} {f : α → KM σ K β} (hm : m s = (.ok a, s))
    {Q : Except Err β → World → Tpm K → Prop} (h : Ex R T s (f a) Q) : Ex R T s (m >>= f) Q := by
  unfold Ex
  rw [bind_ok hm]
  exact h

theorem ex_orPib {s : St σ K} {m h : KM σ K α} {Q1 Q : Except Err α → World → Tpm K → Prop} (hm : Ex R T s m Q1)
    (h1 : ∀ w1 (s1 : St σ K), Sim R s1.pib w1 → Q1 (.error .pib) w1 s1.tpm → Ex R T s1 h Q)
    (h2 : ∀ r w1 t1, r ≠ .error .pib → Q1 r w1 t1 → Q r w1 t1) : Ex R T s (orPib m h) Q := by
  obtain ⟨w', k1, k2, k3⟩ := hm
  unfold Ex orPib
  cases hms : m s with
  | mk r s' =>
    rw [hms] at k1 k2 k3
    cases r with
    | ok a => exact ⟨w', k1, h2 _ _ _ (fun h => by cases h) k2, k3⟩
    | error e =>
      by_cases he : e = .pib
      · subst he
        obtain ⟨w2, l1, l2, l3⟩ := h1 w' s' k1 k2
        exact ⟨w2, l1, l2, k3.trans l3⟩
      · have hne : (.error e : Except Err α) ≠ .error .pib := fun h => he (by injection h)
        cases e <;> first
          | exact absurd rfl he
          | exact ⟨w', k1, h2 _ _ _ hne k2, k3⟩

theorem ex_iteM {s : St σ K} {m : KM σ K Bool} {f g : KM σ K α} {v : Bool} (hm : m s = (.ok v, s))
    {Q : Except Err α → World → Tpm K → Prop} (h1 : v = true → Ex R T s f Q) (h2 : v = false → Ex R T s g Q) :
    Ex R T s (do if ← m then f else g) Q := by
  have e : (do if ← m then f else g : KM σ K α) s = (if v = true then f else g) s := by
    exact bind_ok hm _
  unfold Ex
  rw [e]
  cases v with
  | true => exact h1 rfl
  | false => exact h2 rfl

/-- The result of a call on the PIB. -/
def asRes (o : Out) : Except Err Out :=
  match outErr o with
  | some e => .error e
  | none => .ok o

theorem ex_pib (F : Faithful b R A) {s : St σ K} {w : World} (hs : Sim R s.pib w) (op : FOp) (hr : Real op) (hf : Fits w op)
    (hA : ∀ h k, op = .removeKey h k → A w.v k) (hT : ∀ out w', Step w op out w' → T w'.v s.tpm.keys)
    {Q : Except Err Out → World → Tpm K → Prop}
    (hq : ∀ out w', Step w op out w' → Q (asRes out) w' s.tpm) : Ex R T s (Ndn.KeyChain.pib b op) Q := by
  obtain ⟨w', h1, h2⟩ := hs.good F op hr hf hA
  have e1 : ((Ndn.KeyChain.pib b op : KM σ K Out) s).1 = asRes (fstep b s.pib op).1 := by
    unfold Ndn.KeyChain.pib asRes; dsimp only; split <;> simp_all
  have e2 : ((Ndn.KeyChain.pib b op : KM σ K Out) s).2 = note { s with pib := (fstep b s.pib op).2 } := by
    unfold Ndn.KeyChain.pib; dsimp only; split <;> rfl
  refine ⟨w', ?_, ?_, ?_⟩
  · rw [e2]; exact h2
  · rw [e1, e2]; exact hq _ _ h1
  · rw [e2]
    intro e he
    rcases List.mem_cons.mp he with rfl | he
    · exact Or.inr ⟨w'.v, h2.rep, hT _ _ h1⟩
    · exact Or.inl he

/-- `w'` is like `w`, except that there may be more handles. -/
structure Same (w w' : World) : Prop where
  v : w'.v = w.v
  live : ∀ x r, w.hs x = .alive r → w'.hs x = .alive r

theorem Same.refl (w : World) : Same w w := ⟨rfl, fun _ _ h => h⟩
theorem Same.trans {w1 w2 w3 : World} (h : Same w1 w2) (h' : Same w2 w3) : Same w1 w3 :=
  ⟨h'.v.trans h.v, fun x r e => h'.live x r (h.live x r e)⟩

theorem issue_live {hs : Nat → HState} {h : Nat} {r : Ref} (hi : Issued hs h r) : ∀ x q, hs x = .alive q → issue hs h r x = .alive q := by
  intro x q e
  simp only [issue]
  split
  · subst_vars
    rcases hi.1 with h1 | h1
    · rw [h1] at e; exact e
    · rw [h1] at e; cases e
  · exact e

theorem issue_self (hs : Nat → HState) (h : Nat) (r : Ref) : issue hs h r h = .alive r := by simp [issue]

/-! ## Handles -/

/-- The identity, or key, that a handle stands for. -/
def identOf (w : World) (h : Nat) : Option PName :=
  match w.hs h with
  | .alive (.ident i) => some i
  | _ => none

def keyOfH (w : World) (h : Nat) : Option PName :=
  match w.hs h with
  | .alive (.key k) => some k
  | _ => none

theorem identOf_iff {w : World} {h : Nat} {i : PName} : identOf w h = some i ↔ w.hs h = .alive (.ident i) := by
  unfold identOf
  split <;> simp_all

theorem keyOfH_iff {w : World} {h : Nat} {i : PName} : keyOfH w h = some i ↔ w.hs h = .alive (.key i) := by
  unfold keyOfH
  split <;> simp_all

theorem at_identValid {s : St σ K} {w : World} (hs : Sim R s.pib w) (h : Nat) :
    (identValid h : KM σ K Bool) s = (.ok (identOf w h).isSome, s) := by
  unfold identValid
  congr 2
  cases hd : identOf w h with
  | some i =>
    obtain ⟨o, ho, rfl, hn⟩ := hs.idAll h i (identOf_iff.mp hd)
    rw [(hs.ident?_iff o.h o).mpr ⟨ho, rfl⟩]
    rfl
  | none =>
    rw [hs.ident?_none (fun i hi => by rw [identOf_iff.mpr hi] at hd; cases hd)]
    rfl

theorem at_keyValid {s : St σ K} {w : World} (hs : Sim R s.pib w) (h : Nat) :
    (keyValid h : KM σ K Bool) s = (.ok (keyOfH w h).isSome, s) := by
  unfold keyValid
  congr 2
  cases hd : keyOfH w h with
  | some i =>
    obtain ⟨o, ho, rfl, hn⟩ := hs.keyAll h i (keyOfH_iff.mp hd)
    rw [(hs.key?_iff o.h o).mpr ⟨ho, rfl⟩]
    rfl
  | none =>
    rw [hs.key?_none (fun i hi => by rw [keyOfH_iff.mpr hi] at hd; cases hd)]
    rfl

end Ndn.KeyChain
