import Verif.Validator.CountLemmas
import Verif.Replay.Lemmas
/-
Counts along runs (C52), and runs keep the invariants.
-/
namespace Ndn.Validator
open Ndn.Name Ndn.Cert

variable {P : Type} {E : Env P} {Q : Nat → Prop} {D : Nat}

/-- The counts of a validation. `Q`: its callbacks do not throw. -/
structure VC (Q : Nat → Prop) (D : Nat) (log : List (Obs P)) (v : V P) : Prop where
  flags : Q v.id → v.throwsOk = false ∧ v.throwsFail = false
  out : Q v.id → outs v.id log = if v.phase = .done then 1 else 0
  len : v.seen.length ≤ D
  names : ∀ n, Obs.interest v.id n ∈ log → n ∈ v.seen
  cnt : ints v.id log ≤ 4 * v.seen.length
  fet : ∀ n k, v.phase = .fetching n k → n ∈ v.seen ∧ v.chain.length < D ∧ v.seen.length ≤ v.chain.length + 1 ∧
    ints v.id log + k ≤ 4 * v.seen.length ∧ intsFor v.id log n + k ≤ 4
  bck : ∀ n k, v.phase = .backoff n k → n ∈ v.seen ∧ v.chain.length < D ∧ v.seen.length ≤ v.chain.length + 1 ∧
    ints v.id log + k + 1 ≤ 4 * v.seen.length ∧ intsFor v.id log n + k + 1 ≤ 4
  per : ∀ n, intsFor v.id log n ≤ 4
  new : ∀ n, n ∉ v.seen → intsFor v.id log n = 0

theorem VC.append {log b : List (Obs P)} {v : V P} (h : VC Q D log v) (hb : ∀ o ∈ b, mentions v.id o = false) :
    VC Q D (log ++ b) v := by
  have e1 : outs v.id (log ++ b) = outs v.id log := by rw [outs_append, outs_zero hb]; rfl
  have e2 : ints v.id (log ++ b) = ints v.id log := by rw [ints_append, ints_zero hb]; rfl
  have e3 : intsFor v.id (log ++ b) = intsFor v.id log := by
    funext n
    have := intsFor_le v.id b n
    rw [ints_zero hb] at this
    rw [intsFor_append]; omega
  refine ⟨h.flags, e1 ▸ h.out, h.len, ?_, e2 ▸ h.cnt, e2 ▸ e3 ▸ h.fet, e2 ▸ e3 ▸ h.bck, e3 ▸ h.per, e3 ▸ h.new⟩
  intro n hn
  rcases List.mem_append.mp hn with hn | hn
  · exact h.names n hn
  · have := hb _ hn
    simp [mentions] at this

theorem Counted.vc {log : List (Obs P)} {v : V P} {r : St P × V P × List (Obs P)} (h : Counted D (ints v.id log) (intsFor v.id log) v r)
    (hf : Q v.id → v.throwsOk = false ∧ v.throwsFail = false) (ho : Q v.id → outs v.id log = 0)
    (hn : ∀ n, Obs.interest v.id n ∈ log → n ∈ v.seen) : VC Q D (log ++ r.2.2) r.2.1 := by
  have hint : ints v.id (log ++ r.2.2) = ints v.id log + ints v.id r.2.2 := ints_append _ _ _
  have hfor : ∀ n, intsFor v.id (log ++ r.2.2) n = intsFor v.id log n + intsFor v.id r.2.2 n := intsFor_append _ _ _
  refine ⟨?_, ?_, h.len, ?_, ?_, ?_, ?_, by rw [h.id]; intro n; rw [hfor]; exact h.per n,
    by rw [h.id]; intro n hn; rw [hfor]; exact h.new n hn⟩
  · rw [h.id, h.flags.1, h.flags.2]; exact hf
  · rw [h.id]
    intro hq
    rw [outs_append, ho hq]
    rcases h.shape with ⟨n, k, h1, h2, _⟩ | ⟨h1, h2⟩
    · rw [h1, h2]; simp [outs, isOutcome]
    · rw [h1, if_pos rfl]
      rcases h2 with ⟨e, h2⟩ | h2
      · rw [h2, (failed_own v e).2.2.2 (hf hq).2]
      · rw [h2, (succeeded_own v).2.2.2 (hf hq).1]
  · rw [h.id]
    intro n hm
    rcases List.mem_append.mp hm with hm | hm
    · exact h.seen n (hn n hm)
    · rcases h.shape with ⟨n', k, h1, h2, h3, _⟩ | ⟨h1, h2⟩
      · rw [h2] at hm
        simp only [List.mem_singleton, Obs.interest.injEq, true_and] at hm
        exact hm ▸ h3
      · exfalso
        have : ints v.id r.2.2 = 0 := by
          rcases h2 with ⟨e, h2⟩ | h2
          · rw [h2]; exact (failed_own v e).2.1
          · rw [h2]; exact (succeeded_own v).2.1
        unfold ints at this
        rw [List.countP_eq_zero] at this
        have := this _ hm
        simp [isInterest] at this
  · rw [h.id, hint]; exact h.cnt
  · intro n k hp
    rcases h.shape with ⟨n', k', h1, h2, h3, h4, h5, h6, h7⟩ | ⟨h1, h2⟩
    · rw [h1] at hp
      simp only [Phase.fetching.injEq] at hp
      obtain ⟨rfl, rfl⟩ := hp
      rw [h.id, hint, hfor]
      have : ints v.id r.2.2 = 1 := by rw [h2]; simp [ints, isInterest]
      have : intsFor v.id r.2.2 n' = 1 := by rw [h2]; simp [intsFor, isInterestFor]
      exact ⟨h3, h4, h5, by omega, by omega⟩
    · rw [h1] at hp; cases hp
  · intro n k hp
    rcases h.shape with ⟨n', k', h1, _⟩ | ⟨h1, _⟩ <;> rw [h1] at hp <;> cases hp

structure CInv (Q : Nat → Prop) (D : Nat) (log : List (Obs P)) (s : St P) : Prop where
  depth : s.maxDepth ≤ D
  fuel : Obs.fuel ∉ log
  none : ∀ id, find s.vals id = none → ∀ o ∈ log, mentions id o = false
  val : ∀ v ∈ s.vals, VC Q D log v
  uniq : ∀ id v w, v ∈ s.vals → w ∈ s.vals → v.id = id → w.id = id → v = w

theorem find_put_self {l : List (V P)} {v x : V P} (h : x ∈ l) (he : x.id = v.id) : find (put l v) v.id = some v := by
  induction l with
  | nil => cases h
  | cons y l ih =>
    unfold put find
    by_cases hy : y.id = v.id
    · simp [hy]
    · rw [List.map_cons, if_neg hy, List.find?_cons_of_neg (by simpa using hy)]
      rcases List.mem_cons.mp h with rfl | h
      · exact absurd he hy
      · exact ih h

theorem find_put_ne {l : List (V P)} {v : V P} {i : Nat} (h : i ≠ v.id) : find (put l v) i = find l i := by
  induction l with
  | nil => rfl
  | cons y l ih =>
    unfold put find
    rw [List.map_cons]
    by_cases hy : y.id = v.id
    · rw [if_pos hy, List.find?_cons_of_neg (by simpa using Ne.symm h), List.find?_cons_of_neg (by simpa using (hy ▸ Ne.symm h))]
      exact ih
    · rw [if_neg hy]
      by_cases hi : y.id = i
      · rw [List.find?_cons_of_pos (by simpa using hi), List.find?_cons_of_pos (by simpa using hi)]
      · rw [List.find?_cons_of_neg (by simpa using hi), List.find?_cons_of_neg (by simpa using hi)]
        exact ih

/-- What is left to do for a number. -/
def left' (D : Nat) (s : St P) (id : Nat) : Nat :=
  match find s.vals id with
  | some v => todo D v
  | none => 8 * D

/-- What a step does to the counts. -/
structure CStep (E : Env P) (Q : Nat → Prop) (D : Nat) (log : List (Obs P)) (s : St P) (op : Op P) (r : St P × List (Obs P)) : Prop where
  inv : CInv Q D (log ++ r.2) r.1
  prog : ∀ id, (if answers E s id op then 1 else 0) + left' D r.1 id ≤ left' D s id
  thr : ∀ i, Obs.threw i ∈ r.2 → Q i → ∃ c, op = .data i c ∧ E.hasPeriod c = false

theorem cstep_same {log : List (Obs P)} {s s' : St P} {op : Op P} {b : List (Obs P)} (h : CInv Q D log s) (hv : s'.vals = s.vals)
    (hd : s'.maxDepth ≤ D) (hb : ∀ o ∈ b, (∀ i, mentions i o = true → ∃ v, find s.vals i = some v ∧ isOutcome i o = false ∧ isInterest i o = false) ∧ o ≠ .fuel)
    (ha : ∀ id, answers E s id op = false) (ht : ∀ i, Obs.threw i ∈ b → ∃ c, op = .data i c ∧ E.hasPeriod c = false) :
    CStep E Q D log s op (s', b) := by
  refine ⟨⟨hd, ?_, ?_, ?_, hv ▸ h.uniq⟩, ?_, fun i hi _ => ht i hi⟩
  · simp only [List.mem_append, not_or]
    exact ⟨h.fuel, fun hf => (hb _ hf).2 rfl⟩
  · intro id hf o ho
    have hf : find s'.vals id = none := hf
    rw [hv] at hf
    rcases List.mem_append.mp ho with ho | ho
    · exact h.none id hf o ho
    · cases hm : mentions id o with
      | false => rfl
      | true =>
        obtain ⟨v, hv', _⟩ := (hb o ho).1 id hm
        rw [hf] at hv'; cases hv'
  · intro v hm
    have hm : v ∈ s'.vals := hm
    rw [hv] at hm
    have h' := h.val v hm
    have hz : outs v.id b = 0 ∧ ints v.id b = 0 ∧ ∀ n, Obs.interest v.id n ∉ b := by
      refine ⟨?_, ?_, ?_⟩
      · unfold outs
        rw [List.countP_eq_zero]
        intro o ho
        cases hm : mentions v.id o with
        | false => simp [(outcome_mentions hm).1]
        | true => obtain ⟨_, _, h1, _⟩ := (hb o ho).1 v.id hm; simp [h1]
      · unfold ints
        rw [List.countP_eq_zero]
        intro o ho
        cases hm : mentions v.id o with
        | false => simp [(outcome_mentions hm).2]
        | true => obtain ⟨_, _, _, h1⟩ := (hb o ho).1 v.id hm; simp [h1]
      · intro n hn
        obtain ⟨_, _, _, h1⟩ := (hb _ hn).1 v.id (by simp [mentions])
        simp [isInterest] at h1
    have e1 : outs v.id (log ++ b) = outs v.id log := by rw [outs_append, hz.1]; rfl
    have e2 : ints v.id (log ++ b) = ints v.id log := by rw [ints_append, hz.2.1]; rfl
    have e3 : intsFor v.id (log ++ b) = intsFor v.id log := by
      funext n
      have := intsFor_le v.id b n
      rw [hz.2.1] at this
      rw [intsFor_append]; omega
    refine ⟨h'.flags, e1 ▸ h'.out, h'.len, ?_, e2 ▸ h'.cnt, e2 ▸ e3 ▸ h'.fet, e2 ▸ e3 ▸ h'.bck, e3 ▸ h'.per, e3 ▸ h'.new⟩
    intro n hn
    rcases List.mem_append.mp hn with hn | hn
    · exact h'.names n hn
    · exact absurd hn (hz.2.2 n)
  · intro id
    rw [ha id]
    unfold left'
    rw [hv]
    simp

theorem todo_done {v : V P} (h : v.phase = .done) : todo D v = 0 := by simp [todo, h]

/-- Work on a validation that is in the list. -/
theorem cstep_back {log pre0 : List (Obs P)} {s s0 : St P} {op : Op P} {v : V P} {r : St P × V P × List (Obs P)} (h : CInv Q D log s)
    (hm : v ∈ s.vals) (hpre : ∀ o ∈ pre0, (∀ i, mentions i o = false) ∧ o ≠ .fuel)
    (hthr : ∀ i, Obs.threw i ∈ r.2.2 → ¬ Q i)
    (hv0 : r.1.vals = s.vals) (hd : r.1.maxDepth = s.maxDepth) (hid : r.2.1.id = v.id) (hvc : VC Q D (log ++ pre0 ++ r.2.2) r.2.1)
    (hfuel : Obs.fuel ∉ r.2.2) (hown : ∀ o ∈ r.2.2, ∀ i, i ≠ v.id → mentions i o = false)
    (hfind : find s.vals v.id = some v) (ha : ∀ id, id ≠ v.id → answers E s id op = false)
    (hp : todo D r.2.1 + 1 ≤ todo D v) :
    CStep E Q D log s op ((back r).1, pre0 ++ (back r).2) := by
  have hfs : find (put s.vals r.2.1) v.id = some r.2.1 := by
    rw [← hid]; exact find_put_self hm hid.symm
  refine ⟨⟨?_, ?_, ?_, ?_, ?_⟩, ?_, fun i hi hq => by
    rcases List.mem_append.mp hi with hi | hi
    · have := (hpre _ hi).1 i; simp [mentions] at this
    · exact absurd hq (hthr i hi)⟩
  · show r.1.maxDepth ≤ D
    rw [hd]; exact h.depth
  · show Obs.fuel ∉ log ++ (pre0 ++ r.2.2)
    simp only [List.mem_append, not_or]
    exact ⟨h.fuel, fun hf => (hpre _ hf).2 rfl, hfuel⟩
  · intro id hf o ho
    have hf : find (put r.1.vals r.2.1) id = none := hf
    have ho : o ∈ log ++ (pre0 ++ r.2.2) := ho
    rw [hv0] at hf
    by_cases hi : id = v.id
    · rw [hi, hfs] at hf; cases hf
    · rw [find_put_ne (by rw [hid]; exact hi)] at hf
      rcases List.mem_append.mp ho with ho | ho
      · exact h.none id hf o ho
      · rcases List.mem_append.mp ho with ho | ho
        · exact (hpre o ho).1 id
        · exact hown o ho id hi
  · intro x hx
    show VC Q D (log ++ (pre0 ++ r.2.2)) x
    rw [← List.append_assoc]
    rcases mem_put hx with rfl | ⟨hx, hne⟩
    · exact hvc
    · rw [hv0] at hx
      rw [hid] at hne
      exact ((h.val x hx).append (fun o ho => (hpre o ho).1 _)).append (fun o ho => hown o ho _ hne)
  · intro id x y hx hy h1 h2
    rcases mem_put hx with rfl | ⟨hx, hne⟩
    · rcases mem_put hy with rfl | ⟨hy, hne⟩
      · rfl
      · exact absurd (h2.trans h1.symm) hne
    · rcases mem_put hy with rfl | ⟨hy, hne'⟩
      · exact absurd (h1.trans h2.symm) hne
      · rw [hv0] at hx hy
        exact h.uniq id x y hx hy h1 h2
  · intro id
    unfold left'
    show _ + (match find (put r.1.vals r.2.1) id with | some v => todo D v | none => 8 * D) ≤ _
    rw [hv0]
    by_cases hi : id = v.id
    · subst hi
      rw [hfs, hfind]
      simp only
      split <;> omega
    · rw [find_put_ne (by rw [hid]; exact hi), ha id hi]
      simp

theorem Counted.thr {c : Nat} {cn : List Comp → Nat} {v : V P} {r : St P × V P × List (Obs P)} (h : Counted D c cn v r)
    (hf : Q v.id → v.throwsOk = false ∧ v.throwsFail = false) : ∀ i, Obs.threw i ∈ r.2.2 → ¬ Q i := by
  intro i hi hq
  have hid : i = v.id := by
    refine Decidable.byContradiction fun hne => ?_
    have := h.own _ hi i hne
    simp [mentions] at this
  subst hid
  obtain ⟨f1, f2⟩ := hf hq
  rcases h.shape with ⟨n, k, _, h2, _⟩ | ⟨_, ⟨e, h2⟩ | h2⟩
  · rw [h2] at hi; simp at hi
  · rw [h2] at hi; simp [failed, f2] at hi
  · rw [h2] at hi; simp [succeeded, f1] at hi

theorem Counted.prog {c : Nat} {cn : List Comp → Nat} {v : V P} {r : St P × V P × List (Obs P)} (h : Counted D c cn v r) {m : Nat}
    (hm : ∀ n k, r.2.1.phase = .fetching n k → todo D r.2.1 < m) (h0 : 0 < m) : todo D r.2.1 + 1 ≤ m := by
  rcases h.shape with ⟨n, k, h1, _⟩ | ⟨h1, _⟩
  · exact hm n k h1
  · rw [todo_done h1]; exact h0

theorem need_le (d : Nat) (v : V P) (t : Task) : need d v t ≤ 3 * (d - v.chain.length) + 4 := by
  cases t <;> simp only [need] <;> omega

/-- The input respects `Q` and `D`. -/
structure OpOk (Q : Nat → Prop) (D : Nat) (op : Op P) : Prop where
  quiet : ∀ id p a b, op = .validate id p a b → Q id → a = false ∧ b = false
  depth : DepthLe D op

theorem go_same {log : List (Obs P)} (fuel : Nat) (s : St P) (v : V P) (t : Task) :
    (go E fuel s v t).1.vals = s.vals ∧ (go E fuel s v t).1.maxDepth = s.maxDepth := by
  induction fuel generalizing s v t with
  | zero => exact ⟨rfl, rfl⟩
  | succ fuel ih =>
    cases t with
    | request n =>
      unfold go
      split
      · exact ⟨rfl, rfl⟩
      · split
        · exact ⟨rfl, rfl⟩
        · split
          · exact ⟨rfl, rfl⟩
          · simp only
            have hsame := findTrusted_same (E := E) s n
            split
            · rename_i s' root hf
              rw [hf] at hsame
              unfold conclude
              simp only
              split
              · simp only
                split
                · exact hsame
                · exact ⟨(cacheAll_same _ _).1.trans hsame.1, (cacheAll_same _ _).2.trans hsame.2⟩
              · simp only
                split
                · exact hsame
                · exact ⟨(cacheAll_same _ _).1.trans hsame.1, (cacheAll_same _ _).2.trans hsame.2⟩
            · rename_i s' hf
              rw [hf] at hsame
              have := ih s' { v with seen := n :: v.seen } (.fetch n 3)
              exact ⟨this.1.trans hsame.1, this.2.trans hsame.2⟩
    | fetch n k =>
      unfold go
      simp only
      split
      · exact ih _ _ _
      · split <;> exact ⟨rfl, rfl⟩
    | cert c =>
      unfold go
      split
      · exact ⟨rfl, rfl⟩
      · split
        · exact ⟨rfl, rfl⟩
        · exact ⟨rfl, rfl⟩
        · exact ⟨rfl, rfl⟩
        · exact ih _ _ _

theorem ints_nomention {id : Nat} {log b : List (Obs P)} (h : ∀ o ∈ b, mentions id o = false) : ints id (log ++ b) = ints id log := by
  rw [ints_append, ints_zero h]; rfl
theorem intsFor_nomention {id : Nat} {log b : List (Obs P)} (h : ∀ o ∈ b, mentions id o = false) : intsFor id (log ++ b) = intsFor id log := by
  funext n
  have := intsFor_le id b n
  rw [ints_zero h] at this
  rw [intsFor_append]; omega
theorem outs_nomention {id : Nat} {log b : List (Obs P)} (h : ∀ o ∈ b, mentions id o = false) : outs id (log ++ b) = outs id log := by
  rw [outs_append, outs_zero h]; rfl

theorem step_counted {log : List (Obs P)} {s : St P} (h : CInv Q D log s) (op : Op P) (hop : OpOk Q D op) :
    CStep E Q D log s op (step E s op) := by
  have nil : (∀ id, answers E s id op = false) → CStep E Q D log s op (s, []) := fun ha => cstep_same h rfl h.depth (by simp) ha (by simp)
  cases op with
  | validate id p a b =>
    have ha : ∀ i, answers E s i (.validate id p a b) = false := fun _ => rfl
    simp only [step]
    split
    · exact nil ha
    · rename_i hf
      have hno : ∀ o ∈ log, mentions id o = false := h.none id hf
      have key : ∀ r : St P × V P × List (Obs P), r.1.vals = s.vals → r.1.maxDepth = s.maxDepth →
          Counted D 0 (fun _ => 0) (⟨id, p, [], [], .done, a, b⟩ : V P) r → (∀ n k, r.2.1.phase = .fetching n k → todo D r.2.1 < 8 * D) →
          CStep E Q D log s (.validate id p a b) ({ r.1 with vals := r.2.1 :: r.1.vals }, .started id p :: r.2.2) := by
        intro r hv hd hc hpr
        have hid : r.2.1.id = id := hc.id
        have e : log ++ (Obs.started id p :: r.2.2) = log ++ [.started id p] ++ r.2.2 := by simp
        have hfind : ∀ i, find (r.2.1 :: r.1.vals) i = if i = id then some r.2.1 else find s.vals i := by
          intro i
          unfold find
          by_cases hi : i = id
          · rw [if_pos hi, List.find?_cons_of_pos (by simp [hid, hi])]
          · rw [if_neg hi, List.find?_cons_of_neg (by simp [hid, Ne.symm hi]), hv]
        refine ⟨⟨?_, ?_, ?_, ?_, ?_⟩, ?_, fun i hi hq => by
          rcases List.mem_cons.mp hi with hi | hi
          · cases hi
          · exact absurd hq (hc.thr (Q := Q) (fun hq => hop.quiet id p a b rfl hq) i hi)⟩
        · show r.1.maxDepth ≤ D
          rw [hd]; exact h.depth
        · show Obs.fuel ∉ log ++ (Obs.started id p :: r.2.2)
          simp only [List.mem_append, List.mem_cons, not_or]
          exact ⟨h.fuel, by simp, hc.fuel⟩
        · intro i hfi o ho
          have hfi : find (r.2.1 :: r.1.vals) i = none := hfi
          rw [hfind] at hfi
          by_cases hi : i = id
          · rw [if_pos hi] at hfi; cases hfi
          · rw [if_neg hi] at hfi
            have ho : o ∈ log ++ (Obs.started id p :: r.2.2) := ho
            rcases List.mem_append.mp ho with ho | ho
            · exact h.none i hfi o ho
            · rcases List.mem_cons.mp ho with rfl | ho
              · simp [mentions, Ne.symm hi]
              · exact hc.own o ho i hi
        · intro x hx
          show VC Q D (log ++ (Obs.started id p :: r.2.2)) x
          rw [e]
          rcases List.mem_cons.mp hx with rfl | hx
          · have hz : ints id (log ++ [.started id p]) = 0 := by
              rw [ints_append, ints_zero hno]; simp [ints, isInterest]
            have hz' : intsFor id (log ++ [.started id p]) = fun _ => 0 := by
              funext n
              have := intsFor_le id (log ++ [.started id p]) n
              omega
            refine Counted.vc (v := (⟨id, p, [], [], .done, a, b⟩ : V P)) (by rw [hz, hz']; exact hc) (fun hq => hop.quiet id p a b rfl hq) ?_ ?_
            · intro _
              show outs id _ = 0
              rw [outs_append, outs_zero hno]; simp [outs, isOutcome]
            · intro n hn
              exfalso
              rcases List.mem_append.mp hn with hn | hn
              · have := hno _ hn
                simp [mentions] at this
              · simp at hn
          · have hx : x ∈ r.1.vals := hx
            rw [hv] at hx
            have hne := find_none hf x hx
            refine ((h.val x hx).append ?_).append (fun o ho => hc.own o ho _ hne)
            simp [mentions, Ne.symm hne]
        · intro i x y hx hy h1 h2
          have hx : x ∈ r.2.1 :: r.1.vals := hx
          have hy : y ∈ r.2.1 :: r.1.vals := hy
          rw [hv] at hx hy
          rcases List.mem_cons.mp hx with hx' | hx'
          · rcases List.mem_cons.mp hy with hy' | hy'
            · rw [hx', hy']
            · exact absurd (h2.trans (h1.symm.trans (by rw [hx', hid]))) (find_none hf y hy')
          · rcases List.mem_cons.mp hy with hy' | hy'
            · exact absurd (h1.trans (h2.symm.trans (by rw [hy', hid]))) (find_none hf x hx')
            · exact h.uniq i x y hx' hy' h1 h2
        · intro i
          rw [ha i]
          unfold left'
          show _ + (match find (r.2.1 :: r.1.vals) i with | some v => todo D v | none => 8 * D) ≤ _
          rw [hfind]
          by_cases hi : i = id
          · rw [if_pos hi, hi, hf]
            simp only
            rcases hc.shape with ⟨n, k, h1, _⟩ | ⟨h1, _⟩
            · have := hpr n k h1; simp; omega
            · rw [todo_done h1]; simp
          · rw [if_neg hi]; simp
      split
      · exact key _ rfl rfl (counted_failed _ rfl rfl rfl (fun _ h => h) (by simp) (by simp) (by simp) (by simp)) (fun _ _ h => by simp [failed] at h)
      · exact key _ rfl rfl (counted_failed _ rfl rfl rfl (fun _ h => h) (by simp) (by simp) (by simp) (by simp)) (fun _ _ h => by simp [failed] at h)
      · exact key _ rfl rfl (counted_succeeded rfl rfl rfl rfl (fun _ h => h) (by simp) (by simp) (by simp) (by simp)) (fun _ _ h => by simp [succeeded] at h)
      · rename_i n hp
        have hs := go_same (E := E) (log := log) (bound s (⟨id, p, [], [], .done, a, b⟩ : V P)) s ⟨id, p, [], [], .done, a, b⟩ (.request n)
        have hg := go_counted (E := E) (D := D) (c := 0) (cn := fun _ => 0) (bound s (⟨id, p, [], [], .done, a, b⟩ : V P)) s ⟨id, p, [], [], .done, a, b⟩ (.request n)
          h.depth ⟨by simp, by simp, by simp, by simp, by simp⟩ (need_le _ _ _)
        exact key _ hs.1 hs.2 hg.1 (fun n' k hk => by simpa using hg.2 n' k hk)
  | data id c =>
    simp only [step]
    split
    · rename_i v hf
      obtain ⟨hm, hid⟩ := find_some hf
      have hans : ∀ i, i ≠ v.id → answers E s i (.data id c) = false := by
        intro i hi
        simp only [answers]
        rw [show (decide (id = i)) = false from by simp; rw [← hid]; exact Ne.symm hi]
        rfl
      split
      · rename_i n k hph
        obtain ⟨f1, f2, f3, f4, f5⟩ := (h.val v hm).fet n k hph
        split
        · split
          · have e : ints v.id (log ++ [.received c]) = ints v.id log := ints_nomention (by simp [mentions])
            have e'' : intsFor v.id (log ++ [.received c]) = intsFor v.id log := intsFor_nomention (by simp [mentions])
            have e' : outs v.id (log ++ [.received c]) = outs v.id log := outs_nomention (by simp [mentions])
            have hs := go_same (E := E) (log := log) (bound { s with unverified := s.unverified.insert unverifiedLife c } v)
              { s with unverified := s.unverified.insert unverifiedLife c } v (.cert c)
            have hg := go_counted (E := E) (D := D) (c := ints v.id log) (cn := intsFor v.id log) (bound { s with unverified := s.unverified.insert unverifiedLife c } v)
              { s with unverified := s.unverified.insert unverifiedLife c } v (.cert c) h.depth ⟨by omega, f3, f2, (h.val v hm).per, (h.val v hm).new⟩ (need_le _ _ _)
            refine cstep_back (s0 := s) (pre0 := [.received c]) h hm (by simp [mentions]) (hg.1.thr (h.val v hm).flags) hs.1 hs.2 hg.1.id ?_ hg.1.fuel hg.1.own (hid ▸ hf) hans ?_
            · refine Counted.vc (by rw [e, e'']; exact hg.1) (h.val v hm).flags ?_ ?_
              · intro hq
                rw [e', (h.val v hm).out hq, hph, if_neg (by simp)]
              · intro n hn
                rcases List.mem_append.mp hn with hn | hn
                · exact (h.val v hm).names n hn
                · simp at hn
            · have := hg.1.prog hg.2 (by simp)
              simp only at this
              simp only [todo, hph] at this ⊢
              omega
          · rename_i hper
            refine cstep_same h rfl h.depth ?_ ?_ ?_
            rotate_left 2
            · intro i hi
              simp only [List.mem_singleton, Obs.threw.injEq] at hi
              exact ⟨c, by rw [hi], by simpa using hper⟩
            · intro o ho
              simp only [List.mem_singleton] at ho
              subst ho
              refine ⟨?_, by simp⟩
              intro i hi
              simp only [mentions, decide_eq_true_eq] at hi
              exact ⟨v, hi ▸ hf, rfl, rfl⟩
            · intro i
              by_cases hi : i = v.id
              · subst hi
                simp only [answers]
                rw [show find s.vals v.id = some v from hid ▸ hf]
                have hper : E.hasPeriod c = false := by simpa using hper
                obtain ⟨i1, i2, i3, i4, ph, i6, i7⟩ := v
                simp only at hph
                subst hph
                simp [hper]
              · exact hans i hi
        · rename_i hmc
          apply nil
          intro i
          by_cases hi : i = v.id
          · subst hi
            simp only [answers]
            rw [show find s.vals v.id = some v from hid ▸ hf]
            obtain ⟨i1, i2, i3, i4, ph, i6, i7⟩ := v
            simp only at hph
            subst hph
            have hmc : (E.isMatch n c && n.isPrefixOf c.name) = false := by
              rw [← Bool.not_eq_true]; exact hmc
            simp [hmc]
          · exact hans i hi
      · rename_i hph
        apply nil
        intro i
        by_cases hi : i = v.id
        · subst hi
          simp only [answers]
          rw [show find s.vals v.id = some v from hid ▸ hf]
          obtain ⟨i1, i2, i3, i4, ph, i6, i7⟩ := v
          cases ph with
          | fetching n k => exact absurd rfl (hph n k)
          | backoff n k => simp
          | done => simp
        · exact hans i hi
    · rename_i hf
      apply nil
      intro i
      simp only [answers]
      by_cases hi : id = i
      · subst hi; rw [hf]; simp
      · simp [hi]
  | badData id =>
    simp only [step]
    split
    · rename_i v hf
      obtain ⟨hm, hid⟩ := find_some hf
      have hans : ∀ i, i ≠ v.id → answers E s i (.badData id) = false := by
        intro i hi
        simp only [answers]
        rw [show (decide (id = i)) = false from by simp; rw [← hid]; exact Ne.symm hi]
        rfl
      split
      · rename_i n k hph
        obtain ⟨f1, f2, f3, f4, f5⟩ := (h.val v hm).fet n k hph
        have hc : Counted D (ints v.id log) (intsFor v.id log) v (s, failed v .malformedCert) :=
          counted_failed (s := s) .malformedCert rfl rfl rfl (fun _ h => h) (h.val v hm).len (h.val v hm).cnt (h.val v hm).per (h.val v hm).new
        refine cstep_back (s0 := s) (pre0 := []) h hm (by simp) (hc.thr (h.val v hm).flags) rfl rfl rfl ?_ hc.fuel hc.own (hid ▸ hf) hans ?_
        · rw [List.append_nil]
          exact hc.vc (h.val v hm).flags (fun hq => by rw [(h.val v hm).out hq, hph, if_neg (by simp)]) (h.val v hm).names
        · simp only [todo, failed, hph]; omega
      · rename_i hph
        apply nil
        intro i
        by_cases hi : i = v.id
        · subst hi
          simp only [answers]
          rw [show find s.vals v.id = some v from hid ▸ hf]
          obtain ⟨i1, i2, i3, i4, ph, i6, i7⟩ := v
          cases ph with
          | fetching n k => exact absurd rfl (hph n k)
          | backoff n k => simp
          | done => simp
        · exact hans i hi
    · rename_i hf
      apply nil
      intro i
      simp only [answers]
      by_cases hi : id = i
      · subst hi; rw [hf]; simp
      · simp [hi]
  | nack id =>
    simp only [step]
    split
    · rename_i v hf
      obtain ⟨hm, hid⟩ := find_some hf
      have hans : ∀ i, i ≠ v.id → answers E s i (.nack id) = false := by
        intro i hi
        simp only [answers]
        rw [show (decide (id = i)) = false from by simp; rw [← hid]; exact Ne.symm hi]
        rfl
      split
      · rename_i n k hph
        obtain ⟨f1, f2, f3, f4, f5⟩ := (h.val v hm).fet n _ hph
        refine cstep_back (s0 := s) (pre0 := []) h hm (by simp) (by simp) rfl rfl rfl ?_ (by simp) (by simp) (hid ▸ hf) hans ?_
        · simp only [List.append_nil]
          have hv := h.val v hm
          refine ⟨hv.flags, ?_, hv.len, hv.names, hv.cnt, by simp, ?_, hv.per, hv.new⟩
          · intro hq
            show outs v.id log = _
            rw [hv.out hq, hph]; simp
          · intro n' k' hp
            simp only [Phase.backoff.injEq] at hp
            obtain ⟨rfl, rfl⟩ := hp
            exact ⟨f1, f2, f3, by show ints v.id log + k + 1 ≤ _; omega, by show intsFor v.id log n + k + 1 ≤ 4; omega⟩
        · simp only [todo, hph]; omega
      · rename_i n hph
        obtain ⟨f1, f2, f3, f4, f5⟩ := (h.val v hm).fet n _ hph
        have hc : Counted D (ints v.id log) (intsFor v.id log) v (s, failed v .cannotRetrieve) :=
          counted_failed (s := s) .cannotRetrieve rfl rfl rfl (fun _ h => h) (h.val v hm).len (h.val v hm).cnt (h.val v hm).per (h.val v hm).new
        refine cstep_back (s0 := s) (pre0 := []) h hm (by simp) (hc.thr (h.val v hm).flags) rfl rfl rfl ?_ hc.fuel hc.own (hid ▸ hf) hans ?_
        · rw [List.append_nil]
          exact hc.vc (h.val v hm).flags (fun hq => by rw [(h.val v hm).out hq, hph, if_neg (by simp)]) (h.val v hm).names
        · simp only [todo, failed, hph]; omega
      · rename_i hp1 hp2
        apply nil
        intro i
        by_cases hi : i = v.id
        · subst hi
          simp only [answers]
          rw [show find s.vals v.id = some v from hid ▸ hf]
          obtain ⟨i1, i2, i3, i4, ph, i6, i7⟩ := v
          cases ph with
          | fetching n k =>
            cases k with
            | zero => exact absurd rfl (hp2 n)
            | succ k => exact absurd rfl (hp1 n k)
          | backoff n k => simp
          | done => simp
        · exact hans i hi
    · rename_i hf
      apply nil
      intro i
      simp only [answers]
      by_cases hi : id = i
      · subst hi; rw [hf]; simp
      · simp [hi]
  | timeout id =>
    simp only [step]
    split
    · rename_i v hf
      obtain ⟨hm, hid⟩ := find_some hf
      have hans : ∀ i, i ≠ v.id → answers E s i (.timeout id) = false := by
        intro i hi
        simp only [answers]
        rw [show (decide (id = i)) = false from by simp; rw [← hid]; exact Ne.symm hi]
        rfl
      split
      · rename_i n k hph
        obtain ⟨f1, f2, f3, f4, f5⟩ := (h.val v hm).fet n _ hph
        have hs := go_same (E := E) (log := log) (bound s v) s v (.fetch n k)
        have hg := go_counted (E := E) (D := D) (c := ints v.id log) (cn := intsFor v.id log) (bound s v) s v (.fetch n k) h.depth ⟨by omega, f3, f2, f1, (h.val v hm).per, (h.val v hm).new, by omega⟩ (need_le _ _ _)
        refine cstep_back (s0 := s) (pre0 := []) h hm (by simp) (hg.1.thr (h.val v hm).flags) hs.1 hs.2 hg.1.id ?_ hg.1.fuel hg.1.own (hid ▸ hf) hans ?_
        · rw [List.append_nil]
          exact hg.1.vc (h.val v hm).flags (fun hq => by rw [(h.val v hm).out hq, hph, if_neg (by simp)]) (h.val v hm).names
        · have := hg.1.prog hg.2 (by simp only; omega)
          simp only at this
          simp only [todo, hph] at this ⊢
          omega
      · rename_i n hph
        obtain ⟨f1, f2, f3, f4, f5⟩ := (h.val v hm).fet n _ hph
        have hc : Counted D (ints v.id log) (intsFor v.id log) v (s, failed v .cannotRetrieve) :=
          counted_failed (s := s) .cannotRetrieve rfl rfl rfl (fun _ h => h) (h.val v hm).len (h.val v hm).cnt (h.val v hm).per (h.val v hm).new
        refine cstep_back (s0 := s) (pre0 := []) h hm (by simp) (hc.thr (h.val v hm).flags) rfl rfl rfl ?_ hc.fuel hc.own (hid ▸ hf) hans ?_
        · rw [List.append_nil]
          exact hc.vc (h.val v hm).flags (fun hq => by rw [(h.val v hm).out hq, hph, if_neg (by simp)]) (h.val v hm).names
        · simp only [todo, failed, hph]; omega
      · rename_i hp1 hp2
        apply nil
        intro i
        by_cases hi : i = v.id
        · subst hi
          simp only [answers]
          rw [show find s.vals v.id = some v from hid ▸ hf]
          obtain ⟨i1, i2, i3, i4, ph, i6, i7⟩ := v
          cases ph with
          | fetching n k =>
            cases k with
            | zero => exact absurd rfl (hp2 n)
            | succ k => exact absurd rfl (hp1 n k)
          | backoff n k => simp
          | done => simp
        · exact hans i hi
    · rename_i hf
      apply nil
      intro i
      simp only [answers]
      by_cases hi : id = i
      · subst hi; rw [hf]; simp
      · simp [hi]
  | retry id =>
    simp only [step]
    split
    · rename_i v hf
      obtain ⟨hm, hid⟩ := find_some hf
      have hans : ∀ i, i ≠ v.id → answers E s i (.retry id) = false := by
        intro i hi
        simp only [answers]
        rw [show (decide (id = i)) = false from by simp; rw [← hid]; exact Ne.symm hi]
        rfl
      split
      · rename_i n k hph
        obtain ⟨f1, f2, f3, f4, f5⟩ := (h.val v hm).bck n _ hph
        have hs := go_same (E := E) (log := log) (bound s v) s v (.fetch n k)
        have hg := go_counted (E := E) (D := D) (c := ints v.id log) (cn := intsFor v.id log) (bound s v) s v (.fetch n k) h.depth ⟨by omega, f3, f2, f1, (h.val v hm).per, (h.val v hm).new, by omega⟩ (need_le _ _ _)
        refine cstep_back (s0 := s) (pre0 := []) h hm (by simp) (hg.1.thr (h.val v hm).flags) hs.1 hs.2 hg.1.id ?_ hg.1.fuel hg.1.own (hid ▸ hf) hans ?_
        · rw [List.append_nil]
          exact hg.1.vc (h.val v hm).flags (fun hq => by rw [(h.val v hm).out hq, hph, if_neg (by simp)]) (h.val v hm).names
        · have := hg.1.prog hg.2 (by simp only; omega)
          simp only at this
          simp only [todo, hph] at this ⊢
          omega
      · rename_i hph
        apply nil
        intro i
        by_cases hi : i = v.id
        · subst hi
          simp only [answers]
          rw [show find s.vals v.id = some v from hid ▸ hf]
          obtain ⟨i1, i2, i3, i4, ph, i6, i7⟩ := v
          cases ph with
          | backoff n k => exact absurd rfl (hph n k)
          | fetching n k => simp
          | done => simp
        · exact hans i hi
    · rename_i hf
      apply nil
      intro i
      simp only [answers]
      by_cases hi : id = i
      · subst hi; rw [hf]; simp
      · simp [hi]
  | loadAnchor c => exact cstep_same h rfl h.depth (by simp [mentions]) (fun _ => rfl) (by simp)
  | resetAnchors => exact cstep_same h rfl h.depth (by simp [mentions]) (fun _ => rfl) (by simp)
  | cacheVerified c =>
    simp only [step]
    split
    · exact cstep_same h rfl h.depth (by simp [mentions]) (fun _ => rfl) (by simp)
    · exact nil (fun _ => rfl)
  | resetVerified => exact cstep_same h rfl h.depth (by simp [mentions]) (fun _ => rfl) (by simp)
  | setClock t => exact cstep_same h rfl h.depth (by simp [mentions]) (fun _ => rfl) (by simp)
  | setMaxDepth d => exact cstep_same h rfl hop.depth (by simp) (fun _ => rfl) (by simp)

/-- Every success so far was justified. -/
def Justified (E : Env P) (log : List (Obs P)) : Prop :=
  ∀ pre i p post, log = pre ++ .success i p :: post → Obs.started i p ∈ pre ∧ Acceptable E pre p

theorem Justified.append {log b : List (Obs P)} (h : Justified E log)
    (hb : ∀ pre i p post, b = pre ++ .success i p :: post → Obs.started i p ∈ log ++ pre ∧ Acceptable E (log ++ pre) p) :
    Justified E (log ++ b) := by
  intro pre i p post he
  rcases List.append_eq_append_iff.mp he with ⟨as, h1, h2⟩ | ⟨bs, h1, h2⟩
  · rw [h1]; exact hb as i p post h2
  · cases bs with
    | nil =>
      simp only [List.nil_append, List.append_nil] at h1 h2
      have := hb [] i p post h2.symm
      simpa [h1] using this
    | cons o bs =>
      simp only [List.cons_append, List.cons.injEq] at h2
      obtain ⟨rfl, _⟩ := h2
      exact h pre i p bs h1

/-- The invariants after a run. -/
theorem run_inv {Q : Nat → Prop} {D : Nat} (ops : List (Op P)) (hops : ∀ op ∈ ops, OpOk Q D op) : ∀ x : St P × List (Obs P),
    SInv E x.2 x.1 → CInv Q D x.2 x.1 → Justified E x.2 →
    SInv E (run E x ops).2 (run E x ops).1 ∧ CInv Q D (run E x ops).2 (run E x ops).1 ∧ Justified E (run E x ops).2 ∧
    (∀ id, answered E id x.1 ops + left' D (run E x ops).1 id ≤ left' D x.1 id) ∧
    (∀ i, Obs.threw i ∈ (run E x ops).2 → Q i → Obs.threw i ∈ x.2 ∨ ∃ c, Op.data i c ∈ ops ∧ E.hasPeriod c = false) := by
  induction ops with
  | nil => intro x h1 h2 h3; exact ⟨h1, h2, h3, fun id => by simp [answered, run], fun i hi _ => .inl hi⟩
  | cons op ops ih =>
    intro x h1 h2 h3
    have hs := step_stepped (E := E) h1 op (fun o ho i hf => (outcome_mentions (h2.none i hf o ho)).1)
    have hc := step_counted (E := E) h2 op (hops op (by simp))
    obtain ⟨a1, a2, a3, a4, a5⟩ := ih (fun o ho => hops o (by simp [ho])) ((step E x.1 op).1, x.2 ++ (step E x.1 op).2) hs.inv hc.inv (h3.append hs.succ)
    refine ⟨a1, a2, a3, ?_, ?_⟩
    rotate_left
    · intro i hi hq
      rcases a5 i hi hq with h | ⟨c, h, hp⟩
      · rcases List.mem_append.mp h with h | h
        · exact .inl h
        · obtain ⟨c, rfl, hp⟩ := hc.thr i h hq
          exact .inr ⟨c, by simp, hp⟩
      · exact .inr ⟨c, by simp [h], hp⟩
    intro id
    have h5 := a4 id
    have h6 := hc.prog id
    simp only [answered, run] at h5 ⊢
    omega

theorem start_inv (t : Int) (Q : Nat → Prop) {D : Nat} (hD : 25 ≤ D) : SInv E (start P t).2 (start P t).1 ∧
    CInv Q D (start P t).2 (start P t).1 ∧ Justified E (start P t).2 := by
  refine ⟨⟨⟨rfl, rfl, ?_, ?_, ?_⟩, ?_⟩, ⟨hD, ?_, ?_, ?_, ?_⟩, ?_⟩
  · intro e he; cases he
  · intro e he; cases he
  · intro e he; cases he
  · intro e he; cases he
  · simp [start]
  · intro id _ o ho
    simp only [start, List.mem_singleton] at ho
    subst ho; rfl
  · intro e he; cases he
  · intro id v w hv; cases hv
  · intro pre i p post h
    have : Obs.success i p ∈ (start P t).2 := by rw [h]; simp
    simp [start] at this

/-- A bound on the depths set. -/
def depths : List (Op P) → Nat
  | [] => 25
  | .setMaxDepth d :: ops => max d (depths ops)
  | _ :: ops => depths ops

theorem depths_ge (ops : List (Op P)) : 25 ≤ depths ops := by
  induction ops with
  | nil => exact Nat.le_refl _
  | cons op ops ih => cases op <;> simp only [depths] <;> omega

theorem depths_ok (ops : List (Op P)) : ∀ op ∈ ops, DepthLe (depths ops) op := by
  induction ops with
  | nil => intro op h; cases h
  | cons o ops ih =>
    intro op h
    rcases List.mem_cons.mp h with rfl | h
    · cases op <;> simp only [DepthLe]
      simp only [depths]; omega
    · have := ih op h
      cases op <;> simp only [DepthLe] at this ⊢
      cases o <;> simp only [depths] <;> omega

end Ndn.Validator
