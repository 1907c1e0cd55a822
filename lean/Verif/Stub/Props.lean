import Verif.Stub.Model
/-
C152: the stub of a network monitor. C153: tags of packets.
-/
namespace Ndn.Stub

/-! ### Specification -/

/-- The name an event is about. -/
def Ev.name : Ev → Bytes
  | .added n _ => n
  | .removed n _ => n

/-- What an observer believes about a name: the interface that was added last, unless it was removed. -/
def believes (log : List Ev) (n : Bytes) : Option Nat :=
  match log.reverse.find? (fun e => e.name = n) with
  | some (.added _ i) => some i
  | _ => none

/-- The interfaces as a map. -/
def mapStep (m : Bytes → Option Nat) : Op → Bytes → Option Nat
  | .add n i => if (m n).isSome then m else fun x => if x = n then some i else m x
  | .remove n => fun x => if x = n then none else m x

/-- What is signalled. -/
def signalled (m : Bytes → Option Nat) : Op → List Ev
  | .add n i => if (m n).isSome then [] else [.added n i]
  | .remove n => match m n with
    | none => []
    | some i => [.removed n i]

/-- How a call ends. -/
def outcome (m : Bytes → Option Nat) : Op → Out
  | .add n _ => if (m n).isSome then .threw else .ok
  | .remove _ => .ok

/-! ### Lemmas -/

private theorem get_append (s : St) (n : Bytes) (i : Nat) (h : s.get n = none) (x : Bytes) :
    St.get { s with ifs := s.ifs ++ [(n, i)] } x = if x = n then some i else s.get x := by
  unfold St.get
  simp only [List.find?_append]
  by_cases hx : x = n
  · subst hx
    rw [if_pos rfl]
    have : s.ifs.find? (fun p => p.1 = x) = none := by
      unfold St.get at h
      simpa using h
    rw [this]
    simp
  · rw [if_neg hx]
    have : ([(n, i)] : List (Bytes × Nat)).find? (fun p => p.1 = x) = none := by
      have hd : decide (n = x) = false := decide_eq_false (fun h => hx h.symm)
      simp only [List.find?, hd]
    rw [this, Option.or_none]

private theorem get_filter (s : St) (n x : Bytes) :
    St.get { s with ifs := s.ifs.filter (fun p => p.1 ≠ n) } x = if x = n then none else s.get x := by
  unfold St.get
  simp only [List.find?_filter]
  by_cases hx : x = n
  · subst hx
    rw [if_pos rfl]
    simp
  · rw [if_neg hx]
    congr 2
    funext p
    by_cases hp : p.1 = x
    · simp [hp, hx]
    · simp [hp]

private theorem believes_append (log : List Ev) (e : Ev) (n : Bytes) :
    believes (log ++ [e]) n = if e.name = n then (match e with | .added _ i => some i | .removed _ _ => none)
      else believes log n := by
  unfold believes
  rw [List.reverse_append]
  show (match (e :: log.reverse).find? _ with | some (.added _ i) => some i | _ => none) = _
  rw [List.find?_cons]
  by_cases h : e.name = n
  · simp only [h, decide_true, if_true]
    cases e <;> rfl
  · simp [h]

private theorem emit_quiet {run : St → Op → Out × St} {react : Nat → Ev → List Op} {e : Ev} :
    ∀ (js : List Nat), js.Nodup → (∀ j ∈ js, react j e = []) → ∀ s : St,
      ∃ s', emit run react e js s = (.ok, s') ∧ s'.ifs = s.ifs ∧
        ∀ i, s'.logs i = if i ∈ js then s.logs i ++ [e] else s.logs i
  | [], _, _, s => ⟨s, rfl, rfl, fun i => by simp⟩
  | j :: js, hn, hq, s => by
    obtain ⟨s', h1, h2, h3⟩ := emit_quiet (run := run) js (List.nodup_cons.mp hn).2
      (fun i hi => hq i (List.mem_cons_of_mem _ hi)) (s.deliver j e)
    refine ⟨s', ?_, by rw [h2]; rfl, ?_⟩
    · rw [emit, hq j (List.mem_cons_self ..)]
      exact h1
    · intro i
      rw [h3 i]
      have hj := (List.nodup_cons.mp hn).1
      unfold St.deliver
      by_cases hi : i = j
      · subst hi
        simp [hj]
      · simp [hi]

private theorem emit_append {run : St → Op → Out × St} {react : Nat → Ev → List Op} {e : Ev} {l : Nat} :
    ∀ (js : List Nat), (∀ j ∈ js, react j e = []) → ∀ s s' : St, emit run react e js s = (.ok, s') →
      emit run react e (js ++ [l]) s = runAll run (react l e) (s'.deliver l e)
  | [], _, s, s', h => by
    obtain rfl : s = s' := congrArg Prod.snd h
    show (match runAll run (react l e) (s.deliver l e) with
      | (.ok, s') => emit run react e [] s'
      | r => r) = _
    split
    · rename_i s'' h'
      rw [h']; rfl
    · rfl
  | j :: js, hq, s, s', h => by
    have hj := hq j (List.mem_cons_self ..)
    rw [List.cons_append, emit, hj]
    rw [emit, hj] at h
    exact emit_append js (fun i hi => hq i (List.mem_cons_of_mem _ hi)) (s.deliver j e) s' h

/-- All observers believe what the monitor says. -/
private def Good (k : Nat) (s : St) : Prop := ∀ j < k, ∀ n, believes (s.logs j) n = s.get n

private theorem runAll_good {k : Nat} {run : St → Op → Out × St}
    (hr : ∀ s op, Good k s → (run s op).1 ≠ .aborted → Good k (run s op).2) :
    ∀ (ops : List Op) (s : St), Good k s → (runAll run ops s).1 ≠ .aborted → Good k (runAll run ops s).2
  | [], s, h, _ => h
  | op :: ops, s, h, hx => by
    have h1 := hr s op h
    rw [runAll] at hx ⊢
    cases ho : run s op with
    | mk o s' =>
      rw [ho] at hx h1
      cases o with
      | ok => exact runAll_good hr ops s' (h1 (by simp)) hx
      | threw => exact h1 (by simp)
      | aborted => exact absurd rfl hx

private theorem emit_good {k : Nat} {run : St → Op → Out × St} {react : Nat → Ev → List Op}
    (hq : ∀ j e, j + 1 < k → react j e = [])
    (hr : ∀ s op, Good k s → (run s op).1 ≠ .aborted → Good k (run s op).2) (e : Ev) (s : St)
    (hs : ∀ s' : St, s'.ifs = s.ifs → (∀ i < k, s'.logs i = s.logs i ++ [e]) → Good k s')
    (hx : (emit run react e (List.range k) s).1 ≠ .aborted) : Good k (emit run react e (List.range k) s).2 := by
  cases k with
  | zero => exact fun j hj => absurd hj (by omega)
  | succ k =>
    have hq' : ∀ j ∈ List.range k, react j e = [] := by
      intro j hj
      have := List.mem_range.mp hj
      exact hq j e (by omega)
    obtain ⟨s', h1, h2, h3⟩ := emit_quiet (run := run) (List.range k) List.nodup_range hq' s
    rw [List.range_succ, emit_append _ hq' s s' h1] at hx ⊢
    apply runAll_good hr _ _ _ hx
    apply hs
    · rw [← h2]; rfl
    · intro i hi
      unfold St.deliver
      by_cases hik : i = k
      · subst hik
        simp [h3]
      · simp only [hik, if_false]
        rw [h3, if_pos (List.mem_range.mpr (by omega))]

private theorem exec_good {k : Nat} {react : Nat → Ev → List Op} (hq : ∀ j e, j + 1 < k → react j e = []) :
    ∀ (d : Nat) (a r : Bool) (s : St) (op : Op), Good k s → (exec k react d a r s op).1 ≠ .aborted →
      Good k (exec k react d a r s op).2
  | 0, a, r, s, op, _, hx => absurd rfl hx
  | d + 1, a, r, s, .add n i, hg, hx => by
    rw [exec] at hx ⊢
    by_cases hn : (s.get n).isSome
    · rw [if_pos hn]; exact hg
    · rw [if_neg hn] at hx ⊢
      dsimp only at hx ⊢
      cases a with
      | true => exact absurd rfl hx
      | false =>
        simp only [Bool.false_eq_true, if_false] at hx ⊢
        refine emit_good hq (exec_good hq d true r) _ _ ?_ hx
        intro s' h1 h2 j hj x
        rw [h2 j hj, believes_append]
        have h3 : s'.get x = St.get { s with ifs := s.ifs ++ [(n, i)] } x := by
          unfold St.get; rw [h1]
        rw [h3, get_append s n i (by simpa using hn)]
        by_cases hxn : x = n
        · subst hxn; simp [Ev.name]
        · rw [if_neg hxn, if_neg (by exact fun h => hxn h.symm)]
          exact hg j hj x
  | d + 1, a, r, s, .remove n, hg, hx => by
    rw [exec] at hx ⊢
    cases hn : s.get n with
    | none => exact hg
    | some i =>
      rw [hn] at hx
      dsimp only at hx ⊢
      cases r with
      | true => exact absurd rfl hx
      | false =>
        simp only [Bool.false_eq_true, if_false] at hx ⊢
        refine emit_good hq (exec_good hq d a true) _ _ ?_ hx
        intro s' h1 h2 j hj x
        rw [h2 j hj, believes_append]
        have h3 : s'.get x = St.get { s with ifs := s.ifs.filter (fun p => p.1 ≠ n) } x := by
          unfold St.get; rw [h1]
        rw [h3, get_filter s n]
        by_cases hxn : x = n
        · subst hxn; simp [Ev.name]
        · rw [if_neg hxn, if_neg (by exact fun h => hxn h.symm)]
          exact hg j hj x

/-! ### C152 -/

/-- Observers that follow the signals know the interfaces the monitor lists, after any history of calls,
if none but the one connected last calls the monitor from its handlers. -/
theorem C152_observers_partial (k : Nat) (react : Nat → Ev → List Op) (hq : ∀ j e, j + 1 < k → react j e = [])
    (ops : List Op) (hx : .aborted ∉ (calls k react .init ops).1) (j : Nat) (hj : j < k) (n : Bytes) :
    believes ((calls k react .init ops).2.logs j) n = (calls k react .init ops).2.get n := by
  have key : ∀ (ops : List Op) (s : St), Good k s → .aborted ∉ (calls k react s ops).1 →
      Good k (calls k react s ops).2 := by
    intro ops
    induction ops with
    | nil => exact fun s h _ => h
    | cons op ops ih =>
      intro s h hx
      rw [calls] at hx ⊢
      simp only [List.mem_cons, not_or] at hx
      exact ih _ (exec_good hq 3 false false s op h (fun hc => hx.1 hc.symm)) hx.2
  exact key ops .init (fun _ _ _ => rfl) hx j hj n

/-- The claim without the restriction on handlers. -/
def C152_observers_claim : Prop :=
  ∀ (k : Nat) (react : Nat → Ev → List Op) (ops : List Op), .aborted ∉ (calls k react .init ops).1 →
    ∀ j < k, ∀ n, believes ((calls k react .init ops).2.logs j) n = (calls k react .init ops).2.get n

/-- An observer that removes an interface from its handler of `onInterfaceAdded` misleads those connected
after it: they get the removal before the addition and keep believing in an interface that is gone. -/
theorem C152_observers_counterexample : ¬ C152_observers_claim := by
  intro h
  have := h 2 (fun j e => match j, e with
    | 0, .added n _ => [.remove n]
    | _, _ => []) [.add [101] 7] (by decide +kernel) 1 (by decide) [101]
  exact absurd this (by decide +kernel)

/-- Calls without reactions: `addInterface` throws exactly if there is an interface of that name and then
changes and signals nothing; else the interface is there and all observers are told. `removeInterface`
removes it and tells all observers, or does nothing if there is none. -/
theorem C152_calls (k : Nat) (ops : List Op) (op : Op) :
    let s := (calls k (fun _ _ => []) .init ops).2
    let r := call k (fun _ _ => []) s op
    r.1 = outcome s.get op ∧ (∀ n, r.2.get n = mapStep s.get op n) ∧
      ∀ j < k, r.2.logs j = s.logs j ++ signalled s.get op := by
  intro s r
  have hr : r = exec k (fun _ _ => []) 3 false false s op := rfl
  clear_value s
  cases op with
  | add n i =>
    rw [exec] at hr
    unfold outcome mapStep signalled
    by_cases hn : (s.get n).isSome
    · rw [if_pos hn] at hr
      rw [hr]
      simp [hn]
    · rw [if_neg hn] at hr
      simp only [Bool.false_eq_true, if_false] at hr
      obtain ⟨s', h1, h2, h3⟩ := emit_quiet (run := exec k (fun _ _ => []) 2 true false) (react := fun _ _ => [])
        (e := .added n i) (List.range k) List.nodup_range (fun _ _ => rfl) { s with ifs := s.ifs ++ [(n, i)] }
      rw [h1] at hr
      rw [hr]
      simp only [hn, if_false]
      refine ⟨rfl, ?_, ?_⟩
      · intro x
        have h4 : s'.get x = St.get { s with ifs := s.ifs ++ [(n, i)] } x := by
          unfold St.get; rw [h2]
        rw [h4, get_append s n i (by simpa using hn)]
        rfl
      · intro j hj
        rw [h3, if_pos (List.mem_range.mpr hj)]
        rfl
  | remove n =>
    rw [exec] at hr
    unfold outcome mapStep signalled
    cases hn : s.get n with
    | none =>
      rw [hn] at hr
      rw [hr]
      refine ⟨rfl, ?_, by simp [hn]⟩
      intro x
      by_cases hx : x = n
      · subst hx; simp [hn]
      · simp [hx]
    | some i =>
      rw [hn] at hr
      simp only [Bool.false_eq_true, if_false] at hr
      obtain ⟨s', h1, h2, h3⟩ := emit_quiet (run := exec k (fun _ _ => []) 2 false true) (react := fun _ _ => [])
        (e := .removed n i) (List.range k) List.nodup_range (fun _ _ => rfl)
        { s with ifs := s.ifs.filter (fun p => p.1 ≠ n) }
      rw [h1] at hr
      rw [hr]
      refine ⟨rfl, ?_, ?_⟩
      · intro x
        have h4 : s'.get x = St.get { s with ifs := s.ifs.filter (fun p => p.1 ≠ n) } x := by
          unfold St.get; rw [h2]
        rw [h4, get_filter s n]
      · intro j hj
        rw [h3, if_pos (List.mem_range.mpr hj)]
        simp only [hn]

private theorem runAll_inv {P : St → Prop} {run : St → Op → Out × St} (hr : ∀ s op, P s → P (run s op).2) :
    ∀ (ops : List Op) (s : St), P s → P (runAll run ops s).2
  | [], s, h => h
  | op :: ops, s, h => by
    have h1 := hr s op h
    rw [runAll]
    cases ho : run s op with
    | mk o s' =>
      rw [ho] at h1
      cases o with
      | ok => exact runAll_inv hr ops s' h1
      | threw => exact h1
      | aborted => exact h1

private theorem emit_inv {P : St → Prop} {run : St → Op → Out × St} {react : Nat → Ev → List Op} {e : Ev}
    (hd : ∀ s j, P s → P (St.deliver s j e)) (hr : ∀ s op, P s → P (run s op).2) :
    ∀ (js : List Nat) (s : St), P s → P (emit run react e js s).2
  | [], s, h => h
  | j :: js, s, h => by
    have h1 := runAll_inv hr (react j e) _ (hd s j h)
    rw [emit]
    cases ho : runAll run (react j e) (s.deliver j e) with
    | mk o s' =>
      rw [ho] at h1
      cases o with
      | ok => exact emit_inv hd hr js s' h1
      | threw => exact h1
      | aborted => exact h1

private def Keys (s : St) : Prop := (s.ifs.map (·.1)).Nodup

private theorem exec_keys {k : Nat} {react : Nat → Ev → List Op} :
    ∀ (d : Nat) (a r : Bool) (s : St) (op : Op), Keys s → Keys (exec k react d a r s op).2
  | 0, _, _, s, _, h => h
  | d + 1, a, r, s, .add n i, h => by
    rw [exec]
    split
    · exact h
    · rename_i hn
      have h' : Keys { s with ifs := s.ifs ++ [(n, i)] } := by
        unfold Keys
        simp only [List.map_append, List.map_cons, List.map_nil]
        rw [List.nodup_append]
        refine ⟨h, by simp, ?_⟩
        intro x hx y hy hxy
        obtain rfl := List.mem_singleton.mp hy
        subst hxy
        obtain ⟨p, hp, rfl⟩ := List.mem_map.mp hx
        apply hn
        unfold St.get
        simp only [Option.isSome_map, List.find?_isSome]
        exact ⟨p, hp, by simp⟩
      dsimp only
      split
      · exact h'
      · exact emit_inv (P := Keys) (fun s j hs => hs) (fun s op hs => exec_keys d true r s op hs) _ _ h'
  | d + 1, a, r, s, .remove n, h => by
    rw [exec]
    split
    · exact h
    · have h' : Keys { s with ifs := s.ifs.filter (fun p => p.1 ≠ n) } :=
        h.sublist (List.filter_sublist.map _)
      dsimp only
      split
      · exact h'
      · exact emit_inv (P := Keys) (fun s j hs => hs) (fun s op hs => exec_keys d a true s op hs) _ _ h'

/-- The interfaces listed are those that can be found by their names, each once, whatever handlers do. -/
theorem C152_list (k : Nat) (react : Nat → Ev → List Op) (ops : List Op) (i : Nat) :
    let s := (calls k react .init ops).2
    (i ∈ s.list ↔ ∃ n, s.get n = some i) ∧
      ∀ ns : List Bytes, ns.Nodup → (∀ n, n ∈ ns ↔ (s.get n).isSome) → s.list.length = ns.length := by
  intro s
  have hk : Keys s := by
    have key : ∀ (ops : List Op) (s : St), Keys s → Keys (calls k react s ops).2 := by
      intro ops
      induction ops with
      | nil => exact fun s h => h
      | cons op ops ih => exact fun s h => ih _ (exec_keys 3 false false s op h)
    exact key ops .init List.nodup_nil
  clear_value s
  have hmem : ∀ n, (s.get n).isSome ↔ n ∈ s.ifs.map (·.1) := by
    intro n
    unfold St.get
    simp [List.find?_isSome]
  constructor
  · unfold St.list St.get
    constructor
    · intro h
      obtain ⟨p, hp, rfl⟩ := List.mem_map.mp h
      refine ⟨p.1, ?_⟩
      have : s.ifs.find? (fun q => q.1 = p.1) = some p := by
        unfold Keys at hk
        generalize s.ifs = l at hk hp
        induction l with
        | nil => simp at hp
        | cons q l ih =>
          rw [List.find?_cons]
          rcases List.mem_cons.mp hp with rfl | hp'
          · simp
          · have hne : q.1 ≠ p.1 := by
              intro he
              have h1 := (List.nodup_cons.mp hk).1
              apply h1
              show q.1 ∈ _
              rw [he]
              exact List.mem_map_of_mem hp'
            simp only [hne, decide_false]
            exact ih (List.nodup_cons.mp hk).2 hp'
      rw [this]; rfl
    · rintro ⟨n, h⟩
      obtain ⟨p, h1, h2⟩ := Option.map_eq_some_iff.mp h
      rw [← h2]
      exact List.mem_map_of_mem (List.mem_of_find?_eq_some h1)
  · intro ns h1 h2
    have hp : ns.Perm (s.ifs.map (·.1)) := by
      rw [List.perm_ext_iff_of_nodup h1 hk]
      intro n
      rw [h2, hmem]
    have := hp.length_eq
    unfold St.list
    simp only [List.length_map] at this ⊢
    exact this.symm

example : (calls 2 (fun j e => match j, e with
    | 1, .removed n _ => [.add n 9]
    | _, _ => []) .init [.add [101] 7, .add [102] 8, .add [101] 5, .remove [101]]).1 = [.ok, .ok, .threw, .ok] := by
  decide +kernel

/-! ### C153 -/

/-- Tags as a table: for each packet and type at most one tag. -/
def tableStep (m : Nat → Int → Option Nat) : TOp → Nat → Int → Option Nat
  | .set x t v => fun y u => if y = x ∧ u = t then v else m y u
  | .remove x t => fun y u => if y = x ∧ u = t then none else m y u
  | .copy x z => fun y u => if y = z then m x u else m y u

private theorem getTag_assign (h : Host) (t : Int) (v : Nat) (u : Int) :
    (h.assign t v).getTag u = if u = t then some v else h.getTag u := by
  have hc : ∀ (p : Int × Nat) (l : Host), Host.getTag (p :: l) u = if p.1 = u then some p.2 else Host.getTag l u := by
    intro p l
    unfold Host.getTag
    rw [List.find?_cons]
    by_cases hp : p.1 = u
    · simp [hp]
    · simp [hp]
  induction h with
  | nil =>
    rw [Host.assign, hc]
    by_cases hu : u = t
    · simp [hu]
    · rw [if_neg (fun h => hu h.symm), if_neg hu]
  | cons p l ih =>
    rw [Host.assign]
    split
    · rw [hc]
      by_cases hu : u = t
      · simp [hu]
      · rw [if_neg (fun h => hu h.symm), if_neg hu]
    · split
      · rename_i h1 h2
        rw [hc, hc]
        by_cases hu : u = t
        · simp [hu]
        · rw [if_neg (fun h => hu h.symm), if_neg hu, if_neg (by rw [← h2]; exact fun h => hu h.symm)]
      · rename_i h1 h2
        rw [hc, hc, ih]
        by_cases hu : u = t
        · rw [if_pos hu, if_neg (by rw [hu]; exact fun h => h2 h.symm), if_pos hu]
        · rw [if_neg hu, if_neg hu]

private theorem getTag_filter (h : Host) (t u : Int) :
    Host.getTag (h.filter (fun p => p.1 ≠ t)) u = if u = t then none else h.getTag u := by
  unfold Host.getTag
  rw [List.find?_filter]
  by_cases hu : u = t
  · subst hu; simp
  · rw [if_neg hu]
    congr 2
    funext p
    by_cases hp : p.1 = u
    · simp [hp, hu]
    · simp [hp]

/-- Packets have at most one tag of each type: after any history of setting (a null pointer removes),
removing and copying, `getTag` gives the tag set last, on that packet or on the one it was copied from
before, and a tag of one type is not affected by those of others. Copies are independent. -/
theorem C153_tags (ops : List TOp) (y : Nat) (u : Int) :
    ((ops.foldl tagStep (fun _ => [])) y).getTag u = (ops.foldl tableStep (fun _ _ => none)) y u := by
  have step : ∀ (hs : Nat → Host) (op : TOp) (y : Nat) (u : Int),
      ((tagStep hs op) y).getTag u = tableStep (fun y u => (hs y).getTag u) op y u := by
    intro hs op y u
    have set : ∀ (x : Nat) (t : Int) (v : Option Nat),
        ((if y = x then (hs x).setTag t v else hs y : Host)).getTag u =
          if y = x ∧ u = t then v else (hs y).getTag u := by
      intro x t v
      by_cases hy : y = x
      · subst hy
        simp only [if_true, true_and]
        unfold Host.setTag
        cases v with
        | none => exact getTag_filter _ _ _
        | some v => exact getTag_assign _ _ _ _
      · simp [hy]
    cases op with
    | set x t v => exact set x t v
    | remove x t => exact set x t none
    | copy x z =>
      unfold tagStep tableStep
      by_cases hy : y = z
      · simp [hy]
      · simp [hy]
  have key : ∀ (ops : List TOp) (hs : Nat → Host) (m : Nat → Int → Option Nat),
      (∀ y u, (hs y).getTag u = m y u) → ∀ y u, ((ops.foldl tagStep hs) y).getTag u = (ops.foldl tableStep m) y u := by
    intro ops
    induction ops with
    | nil => exact fun hs m h => h
    | cons op ops ih =>
      intro hs m h
      apply ih
      intro y u
      rw [step]
      have : (fun y u => (hs y).getTag u) = m := by
        funext y u; exact h y u
      rw [this]
  exact key ops _ _ (fun _ _ => rfl) y u

example : (([.set 0 10 (some 1), .set 0 11 (some 2), .copy 0 1, .set 0 10 none, .set 1 11 (some 3)] : List TOp).foldl
    tagStep (fun _ => [])) 1 = [(10, 1), (11, 3)] := by decide

end Ndn.Stub
