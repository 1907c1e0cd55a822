import Verif.Validator.Lemmas
/-
Lemmas for C52: outcomes, requests and progress of validations.
-/
namespace Ndn.Validator
open Ndn.Name Ndn.Cert

variable {P : Type} {E : Env P}

/-- The observation is about validation `id`. -/
def mentions (id : Nat) : Obs P → Bool
  | .started i _ | .success i _ | .failure i _ | .interest i _ | .threw i => i = id
  | _ => false

def outs (id : Nat) (log : List (Obs P)) : Nat := log.countP (isOutcome id)
def ints (id : Nat) (log : List (Obs P)) : Nat := log.countP (isInterest id)
def intsFor (id : Nat) (log : List (Obs P)) (n : List Comp) : Nat := log.countP (isInterestFor id n)

theorem intsFor_append (id : Nat) (a b : List (Obs P)) (n : List Comp) : intsFor id (a ++ b) n = intsFor id a n + intsFor id b n :=
  List.countP_append

theorem isInterestFor_le {id : Nat} {n : List Comp} {o : Obs P} (h : isInterestFor id n o = true) : isInterest id o = true := by
  cases o <;> simp_all [isInterestFor, isInterest]

theorem intsFor_le (id : Nat) (log : List (Obs P)) (n : List Comp) : intsFor id log n ≤ ints id log :=
  List.countP_mono_left fun _ _ h => isInterestFor_le h

theorem outcome_mentions {id : Nat} {o : Obs P} (h : mentions id o = false) : isOutcome id o = false ∧ isInterest id o = false := by
  cases o <;> simp_all [mentions, isOutcome, isInterest]

theorem outs_append (id : Nat) (a b : List (Obs P)) : outs id (a ++ b) = outs id a + outs id b := List.countP_append
theorem ints_append (id : Nat) (a b : List (Obs P)) : ints id (a ++ b) = ints id a + ints id b := List.countP_append

theorem outs_zero {id : Nat} {b : List (Obs P)} (h : ∀ o ∈ b, mentions id o = false) : outs id b = 0 := by
  unfold outs
  rw [List.countP_eq_zero]
  intro o ho
  simp [(outcome_mentions (h o ho)).1]

theorem ints_zero {id : Nat} {b : List (Obs P)} (h : ∀ o ∈ b, mentions id o = false) : ints id b = 0 := by
  unfold ints
  rw [List.countP_eq_zero]
  intro o ho
  simp [(outcome_mentions (h o ho)).2]

/-- What is left to do, when no more than `D` certificates are looked at. -/
def todo (D : Nat) (v : V P) : Nat :=
  match v.phase with
  | .fetching _ k => 8 * (D - 1 - v.chain.length) + (2 * k + 1)
  | .backoff _ k => 8 * (D - 1 - v.chain.length) + (2 * k + 2)
  | .done => 0

/-- What a piece of work produces, for counting: an Interest, or one outcome. `c` counts the Interests before, `cn`
those for each name. -/
structure Counted (D c : Nat) (cn : List Comp → Nat) (v : V P) (r : St P × V P × List (Obs P)) : Prop where
  id : r.2.1.id = v.id
  flags : r.2.1.throwsOk = v.throwsOk ∧ r.2.1.throwsFail = v.throwsFail
  fuel : Obs.fuel ∉ r.2.2
  own : ∀ o ∈ r.2.2, ∀ i, i ≠ v.id → mentions i o = false
  seen : ∀ n ∈ v.seen, n ∈ r.2.1.seen
  len : r.2.1.seen.length ≤ D
  cnt : c + ints v.id r.2.2 ≤ 4 * r.2.1.seen.length
  per : ∀ n, cn n + intsFor v.id r.2.2 n ≤ 4
  new : ∀ n, n ∉ r.2.1.seen → cn n + intsFor v.id r.2.2 n = 0
  shape : (∃ n k, r.2.1.phase = .fetching n k ∧ r.2.2 = [.interest v.id n] ∧ n ∈ r.2.1.seen ∧ r.2.1.chain.length < D ∧
      r.2.1.seen.length ≤ r.2.1.chain.length + 1 ∧ c + 1 + k ≤ 4 * r.2.1.seen.length ∧ cn n + 1 + k ≤ 4) ∨
    (r.2.1.phase = .done ∧ ((∃ e, r.2.2 = (failed v e).2) ∨ r.2.2 = (succeeded v).2))

theorem failed_own (v : V P) (e : Code) : Obs.fuel ∉ (failed v e).2 ∧ ints v.id (failed v e).2 = 0 ∧
    (∀ o ∈ (failed v e).2, ∀ i, i ≠ v.id → mentions i o = false) ∧ (v.throwsFail = false → outs v.id (failed v e).2 = 1) := by
  unfold failed
  cases v.throwsFail <;> simp [ints, outs, isInterest, isOutcome, mentions]
  all_goals
    intro i hi
    first
      | exact fun h => hi h.symm

theorem succeeded_own (v : V P) : Obs.fuel ∉ (succeeded v).2 ∧ ints v.id (succeeded v).2 = 0 ∧
    (∀ o ∈ (succeeded v).2, ∀ i, i ≠ v.id → mentions i o = false) ∧ (v.throwsOk = false → outs v.id (succeeded v).2 = 1) := by
  unfold succeeded
  cases v.throwsOk <;> simp [ints, outs, isInterest, isOutcome, mentions]
  all_goals
    intro i hi
    first
      | exact fun h => hi h.symm

theorem counted_failed {D c : Nat} {cn : List Comp → Nat} {v v' : V P} {s : St P} (e : Code) (h1 : v'.id = v.id) (h2 : v'.throwsOk = v.throwsOk)
    (h3 : v'.throwsFail = v.throwsFail) (h4 : ∀ n ∈ v.seen, n ∈ v'.seen) (h5 : v'.seen.length ≤ D) (h6 : c ≤ 4 * v'.seen.length)
    (h7 : ∀ n, cn n ≤ 4) (h8 : ∀ n, n ∉ v'.seen → cn n = 0) :
    Counted D c cn v (s, failed v' e) := by
  obtain ⟨a1, a2, a3, _⟩ := failed_own v' e
  refine ⟨h1, ⟨h2, h3⟩, a1, h1 ▸ a3, h4, h5, ?_, ?_, ?_, .inr ⟨rfl, .inl ⟨e, ?_⟩⟩⟩
  · show c + ints v.id (failed v' e).2 ≤ _
    rw [← h1, a2]; exact h6
  · intro n
    show cn n + intsFor v.id (failed v' e).2 n ≤ 4
    have := intsFor_le v.id (failed v' e).2 n
    have := h7 n
    rw [← h1] at *
    omega
  · intro n hn
    show cn n + intsFor v.id (failed v' e).2 n = 0
    have := intsFor_le v.id (failed v' e).2 n
    have := h8 n hn
    rw [← h1] at *
    omega
  · simp [failed, h1, h3]

theorem counted_succeeded {D c : Nat} {cn : List Comp → Nat} {v v' : V P} {s : St P} (h1 : v'.id = v.id) (h2 : v'.throwsOk = v.throwsOk)
    (h3 : v'.throwsFail = v.throwsFail) (hp : v'.pkt = v.pkt) (h4 : ∀ n ∈ v.seen, n ∈ v'.seen) (h5 : v'.seen.length ≤ D) (h6 : c ≤ 4 * v'.seen.length)
    (h7 : ∀ n, cn n ≤ 4) (h8 : ∀ n, n ∉ v'.seen → cn n = 0) :
    Counted D c cn v (s, succeeded v') := by
  obtain ⟨a1, a2, a3, _⟩ := succeeded_own v'
  refine ⟨h1, ⟨h2, h3⟩, a1, h1 ▸ a3, h4, h5, ?_, ?_, ?_, .inr ⟨rfl, .inr ?_⟩⟩
  · show c + ints v.id (succeeded v').2 ≤ _
    rw [← h1, a2]; exact h6
  · intro n
    show cn n + intsFor v.id (succeeded v').2 n ≤ 4
    have := intsFor_le v.id (succeeded v').2 n
    have := h7 n
    rw [← h1] at *
    omega
  · intro n hn
    show cn n + intsFor v.id (succeeded v').2 n = 0
    have := intsFor_le v.id (succeeded v').2 n
    have := h8 n hn
    rw [← h1] at *
    omega
  · simp [succeeded, h1, h2, hp]

theorem Counted.of_inner {D c : Nat} {cn : List Comp → Nat} {v v' : V P} {r : St P × V P × List (Obs P)} (h : Counted D c cn v' r) (h1 : v'.id = v.id)
    (h2 : v'.throwsOk = v.throwsOk) (h3 : v'.throwsFail = v.throwsFail) (hp : v'.pkt = v.pkt) (h4 : ∀ n ∈ v.seen, n ∈ v'.seen) :
    Counted D c cn v r := by
  refine ⟨h.id.trans h1, ⟨h.flags.1.trans h2, h.flags.2.trans h3⟩, h.fuel, h1 ▸ h.own, fun n hn => h.seen n (h4 n hn), h.len, h1 ▸ h.cnt, h1 ▸ h.per, h1 ▸ h.new, ?_⟩
  rcases h.shape with ⟨n, k, a⟩ | ⟨a, b⟩
  · rw [h1] at a; exact .inl ⟨n, k, a⟩
  · refine .inr ⟨a, ?_⟩
    rcases b with ⟨e, b⟩ | b
    · exact .inl ⟨e, by rw [b]; simp [failed, h1, h3]⟩
    · exact .inr (by rw [b]; simp [succeeded, h1, h2, hp])

theorem conclude_counted {D c : Nat} {cn : List Comp → Nat} {v v' : V P} {s : St P} {root : Crt} (h1 : v'.id = v.id) (h2 : v'.throwsOk = v.throwsOk)
    (h3 : v'.throwsFail = v.throwsFail) (hp : v'.pkt = v.pkt) (h4 : ∀ n ∈ v.seen, n ∈ v'.seen) (h5 : v'.seen.length ≤ D) (h6 : c ≤ 4 * v'.seen.length)
    (h7 : ∀ n, cn n ≤ 4) (h8 : ∀ n, n ∉ v'.seen → cn n = 0) :
    Counted D c cn v (conclude E s v' root) := by
  have key : ∀ (o : V P × List (Obs P)) (s1 s2 : St P), Counted D c cn v (s1, o) → Counted D c cn v (s2, o) :=
    fun o s1 s2 h => ⟨h.id, h.flags, h.fuel, h.own, h.seen, h.len, h.cnt, h.per, h.new, h.shape⟩
  unfold conclude
  simp only
  split
  · refine key _ s _ ?_
    split
    · exact counted_succeeded h1 h2 h3 hp h4 h5 h6 h7 h8
    · exact counted_failed _ h1 h2 h3 h4 h5 h6 h7 h8
  · exact key _ s _ (counted_failed _ h1 h2 h3 h4 h5 h6 h7 h8)

/-- What the counts are when a task is begun. -/
def Room (D c : Nat) (cn : List Comp → Nat) (v : V P) : Task → Prop
  | .request _ => c ≤ 4 * v.seen.length ∧ v.seen.length ≤ v.chain.length ∧ v.seen.length ≤ D ∧ (∀ n, cn n ≤ 4) ∧ (∀ n, n ∉ v.seen → cn n = 0)
  | .fetch n k => c + k + 1 ≤ 4 * v.seen.length ∧ v.seen.length ≤ v.chain.length + 1 ∧ v.chain.length < D ∧ n ∈ v.seen ∧ (∀ n, cn n ≤ 4) ∧
    (∀ n, n ∉ v.seen → cn n = 0) ∧ cn n + k + 1 ≤ 4
  | .cert _ => c ≤ 4 * v.seen.length ∧ v.seen.length ≤ v.chain.length + 1 ∧ v.chain.length < D ∧ (∀ n, cn n ≤ 4) ∧
    (∀ n, n ∉ v.seen → cn n = 0)

def need (d : Nat) (v : V P) : Task → Nat
  | .request _ => 3 * (d - v.chain.length) + 1
  | .fetch _ _ => 3 * (d - (v.chain.length + 1)) + 3
  | .cert _ => 3 * (d - (v.chain.length + 1)) + 2

theorem go_counted {D c : Nat} {cn : List Comp → Nat} : ∀ (fuel : Nat) (s : St P) (v : V P) (t : Task), s.maxDepth ≤ D → Room D c cn v t →
    need s.maxDepth v t ≤ fuel →
    Counted D c cn v (go E fuel s v t) ∧ ∀ n k, (go E fuel s v t).2.1.phase = .fetching n k →
      todo D (go E fuel s v t).2.1 < (match t with
        | .request _ => 8 * (D - v.chain.length)
        | .fetch _ k => 8 * (D - 1 - v.chain.length) + (2 * k + 2)
        | .cert _ => 8 * (D - 1 - v.chain.length) + 1) := by
  intro fuel
  induction fuel with
  | zero => intro s v t _ _ hn; cases t <;> simp [need] at hn
  | succ fuel ih =>
    intro s v t hd hr hn
    have nf : ∀ (s : St P) (v : V P) e n k, ((s, failed v e) : St P × V P × List (Obs P)).2.1.phase ≠ .fetching n k := by
      intro s v e n k; simp [failed]
    have ns : ∀ (s : St P) (v : V P) n k, ((s, succeeded v) : St P × V P × List (Obs P)).2.1.phase ≠ .fetching n k := by
      intro s v n k; simp [succeeded]
    cases t with
    | request n =>
      obtain ⟨h1, h2, h3, h7, h8⟩ := hr
      unfold go
      split
      · exact ⟨counted_failed _ rfl rfl rfl (fun _ h => h) h3 h1 h7 h8, fun _ _ h => absurd h (nf _ _ _ _ _)⟩
      · rename_i hlt
        split
        · split
          · exact ⟨counted_succeeded rfl rfl rfl rfl (fun _ h => h) h3 h1 h7 h8, fun _ _ h => absurd h (ns _ _ _ _)⟩
          · exact ⟨counted_failed _ rfl rfl rfl (fun _ h => h) h3 h1 h7 h8, fun _ _ h => absurd h (nf _ _ _ _ _)⟩
        · split
          · exact ⟨counted_failed _ rfl rfl rfl (fun _ h => h) h3 h1 h7 h8, fun _ _ h => absurd h (nf _ _ _ _ _)⟩
          · rename_i hseen
            simp only
            have hsame := findTrusted_same (E := E) s n
            split
            · rename_i s' root hf
              refine ⟨conclude_counted rfl rfl rfl rfl (fun _ h => by simp [h]) (by simp; omega) (by simp; omega)
                h7 (fun m hm => h8 m (fun h => hm (by simp [h]))), ?_⟩
              intro n' k hp
              exfalso
              unfold conclude at hp
              simp only at hp
              split at hp
              · rename_i c1 _
                by_cases hk : E.verify v.pkt c1 = true
                · simp [hk, succeeded] at hp
                · simp [hk, failed] at hp
              · simp [failed] at hp
            · rename_i s' hf
              rw [hf] at hsame
              have := ih s' { v with seen := n :: v.seen } (.fetch n 3) (by have := hsame.2; simp only at this; omega)
                ⟨by simp; omega, by simp; omega, by show v.chain.length < D; omega, by simp, h7, fun m hm => h8 m (fun h => hm (by simp [h])), by
                  have := h8 n (by simpa using hseen); omega⟩
                (by have := hsame.2; simp only at this; simp only [need] at hn ⊢; rw [this]; omega)
              refine ⟨this.1.of_inner rfl rfl rfl rfl (fun _ h => by simp [h]), ?_⟩
              intro n' k hp
              have := this.2 n' k hp
              simp only at this ⊢
              omega
    | fetch n k =>
      obtain ⟨h1, h2, h3, h4, h7, h8, h9⟩ := hr
      unfold go
      simp only
      split
      · rename_i c' hf
        have := ih { s with unverified := (s.unverified.findInterest n (E.isMatch n)).1 } v (.cert c') hd
          ⟨by omega, h2, h3, h7, h8⟩ (by simp only [need] at hn ⊢; omega)
        refine ⟨this.1.of_inner rfl rfl rfl rfl (fun _ h => h), ?_⟩
        intro n' k' hp
        have := this.2 n' k' hp
        simp only at this ⊢
        omega
      · split
        · exact ⟨counted_failed _ rfl rfl rfl (fun _ h => h) (by omega) (by omega) h7 h8, fun _ _ h => absurd h (nf _ _ _ _ _)⟩
        · refine ⟨⟨rfl, ⟨rfl, rfl⟩, by simp, ?_, fun _ h => h, ?_, ?_, ?_, ?_, .inl ⟨n, k, rfl, rfl, h4, h3, h2, ?_, by omega⟩⟩, ?_⟩
          · intro o ho i hi
            simp only [List.mem_singleton] at ho
            subst ho
            simp [mentions, Ne.symm hi]
          · show v.seen.length ≤ D
            omega
          · show c + ints v.id [.interest v.id n] ≤ 4 * v.seen.length
            simp [ints, isInterest]; omega
          · intro m
            show cn m + intsFor v.id [.interest v.id n] m ≤ 4
            by_cases hm : n = m
            · subst hm; simp [intsFor, isInterestFor]; omega
            · have := h7 m; simp [intsFor, isInterestFor, hm]; omega
          · intro m hm
            show cn m + intsFor v.id [.interest v.id n] m = 0
            have hne : n ≠ m := fun he => hm (he ▸ h4)
            have := h8 m hm; simp [intsFor, isInterestFor, hne]; omega
          · show c + 1 + k ≤ 4 * v.seen.length
            omega
          · intro n' k' hp
            simp [todo]
    | cert c' =>
      obtain ⟨h1, h2, h3, h7, h8⟩ := hr
      unfold go
      split
      · exact ⟨counted_failed _ rfl rfl rfl (fun _ h => h) (by omega) (by omega) h7 h8, fun _ _ h => absurd h (nf _ _ _ _ _)⟩
      · split
        · exact ⟨counted_failed _ rfl rfl rfl (fun _ h => h) (by omega) (by omega) h7 h8, fun _ _ h => absurd h (nf _ _ _ _ _)⟩
        · exact ⟨counted_failed _ rfl rfl rfl (fun _ h => h) (by omega) (by omega) h7 h8, fun _ _ h => absurd h (nf _ _ _ _ _)⟩
        · exact ⟨counted_failed _ rfl rfl rfl (fun _ h => h) (by omega) (by omega) h7 h8, fun _ _ h => absurd h (nf _ _ _ _ _)⟩
        · rename_i n hpol
          have := ih s { v with chain := c' :: v.chain } (.request n) hd
            ⟨h1, by simpa using h2, by show v.seen.length ≤ D; omega, h7, h8⟩ (by simp only [need, List.length_cons] at hn ⊢; omega)
          refine ⟨this.1.of_inner rfl rfl rfl rfl (fun _ h => h), ?_⟩
          intro n' k' hp
          have := this.2 n' k' hp
          simp only [List.length_cons] at this ⊢
          omega

end Ndn.Validator
