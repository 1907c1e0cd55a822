import Verif.Pipe.Lemmas
/-
Lemmas on step sources and on digest objects.
-/
namespace Ndn.Pipe
open Ndn.Pipe.Spec

variable {D : Iface} {R : D.St → Bytes → Prop} {F : Bytes → Option SinkVal}

/-- Nothing changes in a closed chain. -/
theorem stepRun_closed (s : D.St) (hc : Closed D s) (ops : List SOp) (log : List SObs) :
    stepRun D s log ops = .ok (s, log ++ obsAfter true ops) := by
  induction ops generalizing log with
  | nil => simp [stepRun, obsAfter]
  | cons op ops ih =>
    cases op with
    | write b =>
      obtain ⟨i, hi⟩ := hc.1 b
      simp only [stepRun, hi]
      rw [ih]
      simp [obsAfter]
    | fin =>
      simp only [stepRun, hc.2]
      rw [ih]
      simp [obsAfter]

/-- A history on an open chain. -/
theorem stepRun_sound (h : Sound D R F) (ops : List SOp) (s : D.St) (x : Bytes) (log : List SObs) (hr : R s x) :
    (∃ s', stepRun D s log ops = .ok (s', log ++ obsAfter false ops) ∧
      (hasEnd ops = true → ∃ v, F (x ++ input ops) = some v ∧ D.sink s' = ⟨v, true⟩) ∧ (hasEnd ops = false → R s' (x ++ input ops))) ∨
    ((∃ i, stepRun D s log ops = .error (.refused i)) ∧ (hasEnd ops = true → F (x ++ input ops) = none) ∧
      (hasEnd ops = false → ∀ y, F (x ++ input ops ++ y) = none)) := by
  induction ops generalizing s x log with
  | nil => exact .inl ⟨s, by simp [stepRun, obsAfter], by simp [hasEnd], by simpa [input] using fun _ => hr⟩
  | cons op ops ih =>
    cases op with
    | write b =>
      simp only [stepRun]
      have e1 : hasEnd (.write b :: ops) = hasEnd ops := rfl
      have e2 : x ++ input (.write b :: ops) = x ++ b ++ input ops := by simp [input]
      have e3 : log ++ obsAfter false (.write b :: ops) = log ++ [.wrote b.length] ++ obsAfter false ops := by simp [obsAfter]
      rw [e1, e2, e3]
      rcases h.write s x b hr with ⟨s', h1, h2⟩ | ⟨⟨i, h1⟩, h2⟩
      · rw [h1]
        exact ih s' (x ++ b) (log ++ [.wrote b.length]) h2
      · rw [h1]
        refine .inr ⟨⟨i, rfl⟩, fun _ => h2 _, fun _ y => ?_⟩
        rw [List.append_assoc _ (input ops)]
        exact h2 _
    | fin =>
      simp only [stepRun]
      have e1 : hasEnd (.fin :: ops) = true := rfl
      have e2 : x ++ input (.fin :: ops) = x := by simp [input]
      have e3 : log ++ obsAfter false (.fin :: ops) = log ++ [.ended] ++ obsAfter true ops := by simp [obsAfter]
      rw [e1, e2, e3]
      rcases h.fin s x hr with ⟨s', v, h1, h2, h3, h4⟩ | ⟨⟨i, h1⟩, h2⟩
      · rw [h1]
        dsimp only
        rw [stepRun_closed s' h4]
        exact .inl ⟨s', rfl, fun _ => ⟨v, h2, h3⟩, by simp⟩
      · rw [h1]
        exact .inr ⟨⟨i, rfl⟩, fun _ => h2, by simp⟩

/-! ### Digest objects -/

theorem sha_sound (sha : Bytes → Bytes) : ∃ R, Sound (shaChain sha) R (fun x => some (.stream (sha x) 1)) ∧
    R (chainInit (.stream [] 0) 1 [contextMod (fun x => some (sha x))]) [] := by
  obtain ⟨R, h1, h2⟩ := chain_sound (.stream [] 0) [(contextMod (fun x => some (sha x)), fun x => some (sha x))]
    (by intro p hp; simp only [List.mem_singleton] at hp; subst hp; exact .context _) 1
  refine ⟨R, ?_, h2⟩
  have hF : (fun x => (through [(contextMod (fun x => some (sha x)), fun x => some (sha x))] x).map (fun y => ((SinkVal.stream [] 0).write y).fin)) =
      fun x => some (.stream (sha x) 1) := by
    funext x; simp [through, SinkVal.write, SinkVal.fin]
  rw [hF] at h1
  exact h1

/-- An object and what is meant by it. -/
def ShaSim {sha : Bytes → Bytes} (R : (shaChain sha).St → Bytes → Prop) (h : Sha sha) (o : Obj) : Prop :=
  h.empty = o.empty ∧ h.finalized = o.taken ∧
  if o.taken then (shaChain sha).sink h.st = ⟨.stream (sha o.content) 1, true⟩ else R h.st o.content

variable {sha : Bytes → Bytes} {R : (shaChain sha).St → Bytes → Prop}

theorem digest_sim (hs : Sound (shaChain sha) R (fun x => some (.stream (sha x) 1))) {h : Sha sha} {o : Obj} (hh : ShaSim R h o) :
    ShaSim R h.digest.1 { o with taken := true } ∧ h.digest.2 = sha o.content := by
  obtain ⟨h1, h2, h3⟩ := hh
  unfold Sha.digest
  cases ht : o.taken with
  | true =>
    rw [ht] at h2 h3
    simp only [if_true] at h3
    rw [h2, if_pos rfl]
    refine ⟨⟨h1, h2, h3⟩, ?_⟩
    show (match ((shaChain sha).sink h.st).val with | .stream o _ => o | _ => []) = _
    rw [h3]
  | false =>
    rw [ht] at h2 h3
    simp only [Bool.false_eq_true, if_false] at h3
    rw [h2]
    simp only [Bool.false_eq_true, if_false]
    rcases hs.fin h.st o.content h3 with ⟨s', v, q1, q2, q3, -⟩ | ⟨-, q⟩
    · rw [q1]
      injection q2 with q2
      subst q2
      refine ⟨⟨h1, rfl, q3⟩, ?_⟩
      show (match ((shaChain sha).sink s').val with | .stream o _ => o | _ => []) = _
      rw [q3]
    · cases q

theorem update_sim (hs : Sound (shaChain sha) R (fun x => some (.stream (sha x) 1))) {h : Sha sha} {o : Obj} (hh : ShaSim R h o) (b : Bytes) :
    if o.taken then h.update b = none else ∃ h', h.update b = some h' ∧ ShaSim R h' ⟨o.content ++ b, false, false⟩ := by
  obtain ⟨h1, h2, h3⟩ := hh
  unfold Sha.update
  cases ht : o.taken with
  | true => rw [ht] at h2; rw [h2]; simp
  | false =>
    rw [ht] at h2 h3
    simp only [Bool.false_eq_true, if_false] at h3 ⊢
    rw [h2]
    simp only [Bool.false_eq_true, if_false]
    rcases hs.write h.st o.content b h3 with ⟨s', q1, q2⟩ | ⟨-, q⟩
    · rw [q1]
      exact ⟨_, rfl, rfl, rfl, q2⟩
    · cases q []

/-- All objects together. -/
def AllSim (R : (shaChain sha).St → Bytes → Prop) (f : Nat → Sha sha) (g : Nat → Obj) : Prop := ∀ i, ShaSim R (f i) (g i)

theorem put_sim {f : Nat → Sha sha} {g : Nat → Obj} (h : AllSim R f g) {x : Sha sha} {o : Obj} (i : Nat) (hx : ShaSim R x o) :
    AllSim R (put f i x) (put g i o) := by
  intro j
  unfold put
  split
  · exact hx
  · exact h j

theorem step_sim (hs : Sound (shaChain sha) R (fun x => some (.stream (sha x) 1)))
    (h0 : R (chainInit (.stream [] 0) 1 [contextMod (fun x => some (sha x))]) []) {f : Nat → Sha sha} {g : Nat → Obj} (h : AllSim R f g)
    (op : ShaOp) : AllSim R (shaStep f op).1 (objStep sha g op).1 ∧ (shaStep f op).2 = (objStep sha g op).2 := by
  cases op with
  | reset i => exact ⟨put_sim h i ⟨rfl, rfl, h0⟩, rfl⟩
  | update i b =>
    have := update_sim hs (h i) b
    simp only [shaStep, objStep]
    cases ht : (g i).taken with
    | true => rw [ht] at this; simp only [if_true] at this ⊢; rw [this]; exact ⟨h, rfl⟩
    | false =>
      rw [ht] at this
      simp only [Bool.false_eq_true, if_false] at this ⊢
      obtain ⟨x, hx, hx'⟩ := this
      rw [hx]
      exact ⟨put_sim h i hx', rfl⟩
  | digest i =>
    obtain ⟨h1, h2⟩ := digest_sim hs (h i)
    simp only [shaStep, objStep]
    exact ⟨put_sim h i h1, by rw [h2]⟩
  | empty i => exact ⟨h, by simp only [shaStep, objStep]; rw [(h i).1]⟩
  | eq i j =>
    obtain ⟨h1, h2⟩ := digest_sim hs (h i)
    have h' := put_sim h i h1
    obtain ⟨h3, h4⟩ := digest_sim hs (h' j)
    simp only [shaStep, objStep]
    have hc : (put g i { g i with taken := true } j).content = (g j).content := by
      unfold put; split
      · rename_i e; rw [e]
      · rfl
    have hput : (put (put g i { g i with taken := true }) j { put g i { g i with taken := true } j with taken := true }) =
        put (put g i { g i with taken := true }) j { g j with taken := true } := by
      funext k
      simp only [put]
      split
      · split
        · rename_i e; subst e; rfl
        · rfl
      · rfl
    refine ⟨hput ▸ put_sim h' j h3, ?_⟩
    rw [h2, h4, hc]
    congr 1
    by_cases he : sha (g i).content = sha (g j).content
    · rw [he]; simp
    · simp [he]
  | append i j =>
    obtain ⟨h1, h2⟩ := digest_sim hs (h j)
    have h' := put_sim h j h1
    have hu := update_sim hs (h' i) (f j).digest.2
    simp only [shaStep, objStep]
    cases ht : (put g j { g j with taken := true } i).taken with
    | true => rw [ht] at hu; simp only [if_true] at hu ⊢; rw [hu]; exact ⟨h', rfl⟩
    | false =>
      rw [ht] at hu
      simp only [Bool.false_eq_true, if_false] at hu ⊢
      obtain ⟨x, hx, hx'⟩ := hu
      rw [hx]
      rw [h2] at hx'
      exact ⟨put_sim h' i hx', rfl⟩

theorem run_sim (hs : Sound (shaChain sha) R (fun x => some (.stream (sha x) 1)))
    (h0 : R (chainInit (.stream [] 0) 1 [contextMod (fun x => some (sha x))]) []) (ops : List ShaOp) {f : Nat → Sha sha} {g : Nat → Obj}
    (h : AllSim R f g) (log : List ShaObs) : (shaRun (f, log) ops).2 = (objRun sha (g, log) ops).2 := by
  induction ops generalizing f g log with
  | nil => rfl
  | cons op ops ih =>
    obtain ⟨h1, h2⟩ := step_sim hs h0 h op
    simp only [shaRun, objRun]
    rw [h2]
    exact ih h1 _

end Ndn.Pipe
