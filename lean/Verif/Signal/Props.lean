import Verif.Signal.Spec
/-
C36: signal emission.
-/
namespace Ndn.Signal
open Spec

theorem obsRun_append (l m : List Obs) (a : Abs) : obsRun a (l ++ m) = (obsRun a l).bind (fun a => obsRun a m) := by
  induction l generalizing a with
  | nil => rfl
  | cons o l ih =>
    simp only [List.cons_append, obsRun]
    cases obsStep a o with
    | none => rfl
    | some a' => exact ih a'

def pairOf (x : Slot) : Nat × Bool := (x.id, x.single)

/-- Relation between the model and the automaton. -/
inductive Sim : St → Abs → Prop where
  | idle {s : St} : s.mode = .idle → (∀ x ∈ s.slots, x.alive = true ∧ x.id < s.nextId) →
      s.slots.Pairwise (fun a b => a.id ≠ b.id) → Sim s ⟨s.slots.map pairOf, none⟩
  | handler {s : St} {A B C : List Slot} {c : Slot} {last : Nat} {m : Bool} {conn : List (Nat × Bool)} :
      s.mode = .handler c.id last m → s.slots = A ++ c :: (B ++ C) → c.alive = !m →
      (∀ x ∈ A ++ (B ++ C), x.alive = true) → (∀ x ∈ s.slots, x.id < s.nextId) →
      s.slots.Pairwise (fun a b => a.id ≠ b.id) → last = ((c :: B).getLast (by simp)).id →
      conn = (A ++ ((if m then [] else [c]) ++ (B ++ C))).map pairOf →
      Sim s ⟨conn, some (B.map Slot.id)⟩
  | undefined {s : St} {a : Abs} : s.mode = .undefined → Sim s a

theorem erase_mid {A D : List Slot} {c : Slot} (h : (A ++ c :: D).Pairwise (fun a b => a.id ≠ b.id)) :
    erase c.id (A ++ c :: D) = A ++ D := by
  obtain ⟨h1, h2, h3⟩ := List.pairwise_append.mp h
  obtain ⟨h4, h5⟩ := List.pairwise_cons.mp h2
  unfold erase
  rw [List.filter_append, List.filter_cons_of_neg (by simp)]
  congr 1
  · rw [List.filter_eq_self]
    intro x hx
    simpa using h3 x hx c (List.mem_cons_self ..)
  · rw [List.filter_eq_self]
    intro x hx
    have := h4 x hx
    simpa using fun h => this h.symm

theorem kill_mid {A D : List Slot} {c : Slot} (h : (A ++ c :: D).Pairwise (fun a b => a.id ≠ b.id)) :
    kill c.id (A ++ c :: D) = A ++ { c with alive := false } :: D := by
  obtain ⟨h1, h2, h3⟩ := List.pairwise_append.mp h
  obtain ⟨h4, h5⟩ := List.pairwise_cons.mp h2
  unfold kill
  rw [List.map_append, List.map_cons]
  have e1 : A.map (fun x => if x.id = c.id then { x with alive := false } else x) = A := by
    rw [List.map_congr_left (g := id)]
    · simp
    · intro x hx
      have := h3 x hx c (List.mem_cons_self ..)
      simp [this]
  have e2 : D.map (fun x => if x.id = c.id then { x with alive := false } else x) = D := by
    rw [List.map_congr_left (g := id)]
    · simp
    · intro x hx
      have := h4 x hx
      have : ¬ x.id = c.id := fun h => this h.symm
      simp [this]
  rw [e1, e2]
  simp

theorem after_mid {A D : List Slot} {c : Slot} (h : (A ++ c :: D).Pairwise (fun a b => a.id ≠ b.id)) :
    after c.id (A ++ c :: D) = D.head?.map Slot.id := by
  induction A with
  | nil => simp [after]
  | cons x A ih =>
    obtain ⟨h1, h2⟩ := List.pairwise_cons.mp h
    have : x.id ≠ c.id := h1 c (by simp)
    simp only [List.cons_append, after, this, if_false]
    exact ih h2

theorem connected_mid {s : St} {A D : List Slot} {c : Slot} (hs : s.slots = A ++ c :: D)
    (h : s.slots.Pairwise (fun a b => a.id ≠ b.id)) : isConnected s c.id = c.alive := by
  rw [hs] at h
  obtain ⟨h1, h2, h3⟩ := List.pairwise_append.mp h
  obtain ⟨h4, h5⟩ := List.pairwise_cons.mp h2
  unfold isConnected
  rw [hs]
  rw [List.any_append, List.any_cons]
  have e1 : A.any (fun x => x.id = c.id && x.alive) = false := by
    rw [List.any_eq_false]
    intro x hx
    have := h3 x hx c (List.mem_cons_self ..)
    simp [this]
  have e2 : D.any (fun x => x.id = c.id && x.alive) = false := by
    rw [List.any_eq_false]
    intro x hx
    have := h4 x hx
    have : ¬ x.id = c.id := fun h => this h.symm
    simp [this]
  rw [e1, e2]
  simp

theorem single_mid {s : St} {A D : List Slot} {c : Slot} (hs : s.slots = A ++ c :: D)
    (h : s.slots.Pairwise (fun a b => a.id ≠ b.id)) : s.slots.any (fun x => x.id = c.id && x.single) = c.single := by
  rw [hs] at h
  obtain ⟨h1, h2, h3⟩ := List.pairwise_append.mp h
  obtain ⟨h4, h5⟩ := List.pairwise_cons.mp h2
  rw [hs]
  rw [List.any_append, List.any_cons]
  have e1 : A.any (fun x => x.id = c.id && x.single) = false := by
    rw [List.any_eq_false]
    intro x hx
    have := h3 x hx c (List.mem_cons_self ..)
    simp [this]
  have e2 : D.any (fun x => x.id = c.id && x.single) = false := by
    rw [List.any_eq_false]
    intro x hx
    have := h4 x hx
    have : ¬ x.id = c.id := fun h => this h.symm
    simp [this]
  rw [e1, e2]
  simp

theorem filter_pairs (i : Nat) (l : List Slot) :
    (l.map pairOf).filter (fun x => x.1 ≠ i) = (erase i l).map pairOf := by
  unfold erase
  rw [List.filter_map]
  rfl

theorem erase_none {i : Nat} {l : List Slot} (h : ∀ x ∈ l, x.id ≠ i) : erase i l = l := by
  unfold erase
  rw [List.filter_eq_self]
  intro x hx
  simpa using h x hx

theorem returned_pairs (i : Nat) (l : List Slot) :
    (l.map pairOf).filter (fun x => ¬ (x.1 = i ∧ x.2 = true)) =
      (l.filter (fun x => ¬ (x.id = i ∧ x.single = true))).map pairOf := by
  rw [List.filter_map]
  rfl

theorem filter_single_none {i : Nat} {l : List Slot} (h : ∀ x ∈ l, x.id ≠ i) :
    l.filter (fun x => ¬ (x.id = i ∧ x.single = true)) = l := by
  rw [List.filter_eq_self]
  intro x hx
  have := h x hx
  simp [this]

/-- One step of the model is allowed by the automaton. -/
theorem sim_step {s : St} {a : Abs} (h : Sim s a) (op : Op)
    (hc : op = .throw → ∀ cur last m, s.mode = .handler cur last m → isConnected s cur = true) :
    ∃ obs a', (step s op).log = s.log ++ obs ∧ obsRun a obs = some a' ∧ Sim (step s op) a' := by
  cases h with
  | undefined hm =>
    have : step s op = s := by
      cases op <;> simp [step, disconnect, emit, ret, throw, hm]
    rw [this]
    exact ⟨[], a, by simp, rfl, .undefined hm⟩
  | idle hm hal hnd =>
    cases op with
    | connect sg =>
      refine ⟨[.connected s.nextId sg], ⟨s.slots.map pairOf ++ [(s.nextId, sg)], none⟩, ?_, rfl, ?_⟩
      · simp [step, hm, connect]
      · have hst : step s (.connect sg) = connect s sg := by simp [step, hm]
        rw [hst]
        have := Sim.idle (s := connect s sg) hm
          (by
            intro x hx
            simp only [connect, List.mem_append, List.mem_singleton] at hx ⊢
            rcases hx with hx | rfl
            · exact ⟨(hal x hx).1, Nat.lt_succ_of_lt (hal x hx).2⟩
            · exact ⟨rfl, Nat.lt_succ_self _⟩)
          (by
            simp only [connect]
            refine List.pairwise_append.mpr ⟨hnd, List.pairwise_singleton _ _, ?_⟩
            intro x hx y hy
            obtain rfl := List.mem_singleton.mp hy
            exact Nat.ne_of_lt (hal x hx).2)
        have e : (connect s sg).slots.map pairOf = s.slots.map pairOf ++ [(s.nextId, sg)] := by
          simp [connect, pairOf]
        rw [e] at this
        exact this
    | disconnect i =>
      by_cases hcn : isConnected s i = true
      · have hst : step s (.disconnect i) = { s with slots := erase i s.slots, log := s.log ++ [.disconnected i] } := by
          simp [step, disconnect, hcn, hm]
        rw [hst]
        refine ⟨[.disconnected i], ⟨(erase i s.slots).map pairOf, none⟩, rfl, ?_, ?_⟩
        · simp only [obsRun, obsStep, Option.bind_some]
          rw [filter_pairs]
        · exact Sim.idle (s := { s with slots := erase i s.slots, log := s.log ++ [.disconnected i] }) hm
            (fun x hx => hal x (List.mem_filter.mp hx).1) (hnd.sublist List.filter_sublist)
      · have hst : step s (.disconnect i) = s := by
          simp [step, disconnect, hcn]
        rw [hst]
        exact ⟨[], _, by simp, rfl, .idle hm hal hnd⟩
    | emit =>
      cases hs : s.slots with
      | nil =>
        have hst : step s .emit = { s with log := s.log ++ [.emit, .done] } := by
          simp [step, emit, hm, hs]
        rw [hst]
        refine ⟨[.emit, .done], ⟨[], none⟩, rfl, rfl, ?_⟩
        have := Sim.idle (s := { s with log := s.log ++ [.emit, .done] }) hm hal hnd
        have e : s.slots.map pairOf = [] := by rw [hs]; rfl
        simp only [e] at this
        exact this
      | cons c D =>
        have hst : step s .emit = { s with mode := Mode.handler c.id ((c :: D).getLast (by simp)).id false,
                                           log := s.log ++ [Obs.emit, Obs.called c.id] } := by
          simp [step, emit, hm, hs, List.getLast?_eq_some_getLast]
        rw [hst]
        refine ⟨[.emit, .called c.id], ⟨(c :: D).map pairOf, some (D.map Slot.id)⟩, rfl, ?_, ?_⟩
        · have e : (D.map pairOf).map Prod.fst = D.map Slot.id := by
            rw [List.map_map]; rfl
          simp only [obsRun, obsStep, if_true, Option.bind_some, List.map_cons, pairOf]
          simp only [pairOf, List.map_map] at e ⊢
          rfl
        · refine Sim.handler (A := []) (B := D) (C := []) (c := c) (m := false) rfl (by simp [hs]) ?_ ?_ ?_ hnd rfl ?_
          · exact (hal c (by rw [hs]; exact List.mem_cons_self ..)).1
          · intro x hx
            exact (hal x (by rw [hs]; exact List.mem_cons_of_mem _ (by simpa using hx))).1
          · exact fun x hx => (hal x hx).2
          · simp
    | ret =>
      have hst : step s .ret = s := by simp [step, ret, hm]
      rw [hst]
      exact ⟨[], _, by simp, rfl, .idle hm hal hnd⟩
    | throw =>
      have hst : step s .throw = s := by simp [step, throw, hm]
      rw [hst]
      exact ⟨[], _, by simp, rfl, .idle hm hal hnd⟩
  | @handler A B C c last m conn hm hs hca hal hlt hnd hlast hconn =>
    have hcon := connected_mid hs hnd
    have hsg := single_mid hs hnd
    have hnd' := hnd
    rw [hs] at hnd'
    have hneA : ∀ x ∈ A, x.id ≠ c.id := fun x hx => (List.pairwise_append.mp hnd').2.2 x hx c (List.mem_cons_self ..)
    have hneD : ∀ x ∈ B ++ C, x.id ≠ c.id := by
      intro x hx h
      exact (List.pairwise_cons.mp (List.pairwise_append.mp hnd').2.1).1 x hx h.symm
    cases op with
    | connect sg =>
      have hst : step s (.connect sg) = connect s sg := by simp [step, hm]
      rw [hst]
      refine ⟨[.connected s.nextId sg], ⟨conn ++ [(s.nextId, sg)], some (B.map Slot.id)⟩, rfl, rfl, ?_⟩
      refine Sim.handler (A := A) (B := B) (C := C ++ [⟨s.nextId, sg, true⟩]) (c := c) (m := m) hm ?_ hca ?_ ?_ ?_ hlast ?_
      · simp [connect, hs]
      · intro x hx
        simp only [List.mem_append, List.mem_singleton] at hx
        rcases hx with hx | hx | hx | rfl
        · exact hal x (by simp [hx])
        · exact hal x (by simp [hx])
        · exact hal x (by simp [hx])
        · rfl
      · intro x hx
        simp only [connect, List.mem_append, List.mem_singleton] at hx ⊢
        rcases hx with hx | rfl
        · exact Nat.lt_succ_of_lt (hlt x hx)
        · exact Nat.lt_succ_self _
      · simp only [connect]
        refine List.pairwise_append.mpr ⟨hnd, List.pairwise_singleton _ _, ?_⟩
        intro x hx y hy
        obtain rfl := List.mem_singleton.mp hy
        exact Nat.ne_of_lt (hlt x hx)
      · rw [hconn]; simp [pairOf]
    | disconnect i =>
      by_cases hcn : isConnected s i = true
      · by_cases hi : i = c.id
        · subst hi
          have hmf : m = false := by
            rw [hcon, hca] at hcn
            simpa using hcn
          subst hmf
          have hst : step s (.disconnect c.id) = { s with slots := kill c.id s.slots, mode := .handler c.id last true, log := s.log ++ [.disconnected c.id] } := by
            simp [step, disconnect, hcn, hm]
          rw [hst]
          refine ⟨[.disconnected c.id], ⟨(A ++ (B ++ C)).map pairOf, some (B.map Slot.id)⟩, rfl, ?_, ?_⟩
          · simp only [obsRun, obsStep, Option.bind_some, hconn]
            rw [filter_pairs]
            have : A ++ ((if false = true then [] else [c]) ++ (B ++ C)) = A ++ c :: (B ++ C) := by simp
            rw [this, erase_mid hnd']
          · have hk := kill_mid hnd'
            refine Sim.handler (A := A) (B := B) (C := C) (c := { c with alive := false }) (m := true) rfl ?_ rfl hal ?_ ?_ ?_ ?_
            · simp only [hs]; exact hk
            · simp only [hs]
              rw [hk]
              intro x hx
              have : x.id < s.nextId := by
                rcases List.mem_append.mp hx with hx | hx
                · exact hlt x (by rw [hs]; simp [hx])
                · rcases List.mem_cons.mp hx with rfl | hx
                  · exact hlt c (by rw [hs]; simp)
                  · exact hlt x (by rw [hs]; exact List.mem_append_right _ (List.mem_cons_of_mem _ hx))
              exact this
            · simp only [hs]
              rw [hk]
              obtain ⟨p1, p2, p3⟩ := List.pairwise_append.mp hnd'
              obtain ⟨p4, p5⟩ := List.pairwise_cons.mp p2
              refine List.pairwise_append.mpr ⟨p1, List.pairwise_cons.mpr ⟨p4, p5⟩, ?_⟩
              intro x hx y hy
              rcases List.mem_cons.mp hy with rfl | hy
              · exact hneA x hx
              · exact p3 x hx y (List.mem_cons_of_mem _ hy)
            · rw [hlast]
              cases B with
              | nil => rfl
              | cons b B => simp
            · simp
        · have hst : step s (.disconnect i) = { s with mode := .undefined } := by
            simp [step, disconnect, hcn, hm, hi]
          rw [hst]
          exact ⟨[], ⟨conn, some (B.map Slot.id)⟩, by simp, rfl, .undefined rfl⟩
      · have hst : step s (.disconnect i) = s := by
          simp [step, disconnect, hcn]
        rw [hst]
        exact ⟨[], _, by simp, rfl, .handler hm hs hca hal hlt hnd hlast hconn⟩
    | emit =>
      have hst : step s .emit = { s with mode := .undefined } := by simp [step, emit, hm]
      rw [hst]
      exact ⟨[], ⟨conn, some (B.map Slot.id)⟩, by simp, rfl, .undefined rfl⟩
    | throw =>
      have hst : step s .throw = { s with mode := .idle, log := s.log ++ [.threw c.id] } := by simp [step, throw, hm]
      have hmf : m = false := by
        have := hc rfl c.id last m hm
        rw [hcon, hca] at this
        simpa using this
      subst hmf
      rw [hst]
      refine ⟨[.threw c.id], ⟨conn, none⟩, rfl, rfl, ?_⟩
      have := Sim.idle (s := { s with mode := .idle, log := s.log ++ [.threw c.id] }) rfl
        (by
          intro x hx
          refine ⟨?_, hlt x hx⟩
          simp only [hs] at hx
          rcases List.mem_append.mp hx with hx | hx
          · exact hal x (by simp [hx])
          · rcases List.mem_cons.mp hx with rfl | hx
            · exact hca
            · exact hal x (List.mem_append_right _ hx)) hnd
      have e : s.slots.map pairOf = conn := by rw [hconn, hs]; simp
      simp only [e] at this
      exact this
    | ret =>
      have hD : ∀ x ∈ B ++ C, x.alive = true := fun x hx => hal x (List.mem_append_right _ hx)
      -- the observations of the return
      let marked := m || (c.single && c.alive)
      let slots' := if marked then A ++ (B ++ C) else A ++ c :: (B ++ C)
      have hslots : (if marked then erase c.id s.slots else s.slots) = slots' := by
        simp only [slots', hs]
        rw [erase_mid hnd']
      have hsub : slots'.Sublist s.slots := by
        simp only [slots', hs]
        split
        · exact List.Sublist.append_left (List.sublist_cons_self _ _) _
        · exact List.Sublist.refl _
      have halive : ∀ x ∈ slots', x.alive = true := by
        intro x hx
        simp only [slots'] at hx
        split at hx
        · exact hal x hx
        · rename_i hmk
          have hmf : m = false := by
            cases m
            · rfl
            · simp [marked] at hmk
          rcases List.mem_append.mp hx with hx | hx
          · exact hal x (by simp [hx])
          · rcases List.mem_cons.mp hx with rfl | hx
            · rw [hca, hmf]; rfl
            · exact hD x hx
      have hconn' : conn.filter (fun x => ¬ (x.1 = c.id ∧ x.2 = true)) = slots'.map pairOf := by
        rw [hconn, returned_pairs]
        congr 1
        rw [List.filter_append, List.filter_append, filter_single_none hneA, filter_single_none hneD]
        cases m
        · cases hcs : c.single
          · simp [hcs, slots', marked]
          · simp [hcs, hca, slots', marked]
        · simp [slots', marked]
      have hr1 : obsRun ⟨conn, some (B.map Slot.id)⟩ [.returned c.id] = some ⟨slots'.map pairOf, some (B.map Slot.id)⟩ := by
        simp only [obsRun, obsStep, Option.bind_some]
        rw [hconn']
      by_cases hcl : c.id = last
      · have hB : B = [] := by
          cases B with
          | nil => rfl
          | cons b B =>
            exfalso
            rw [hcl] at hneD
            have : (b :: B).getLast (by simp) ∈ b :: B ++ C := List.mem_append_left _ (List.getLast_mem _)
            apply hneD _ this
            rw [hlast]
            simp
        have hst : step s .ret = { s with slots := slots', mode := .idle, log := s.log ++ [.returned c.id, .done] } := by
          simp only [step, ret, hm, hsg, hcon]
          rw [if_pos hcl]
          rw [hslots]
        rw [hst]
        refine ⟨[.returned c.id, .done], ⟨slots'.map pairOf, none⟩, rfl, ?_, ?_⟩
        · rw [show [Obs.returned c.id, Obs.done] = [Obs.returned c.id] ++ [Obs.done] from rfl, obsRun_append, hr1, hB]
          rfl
        · exact Sim.idle (s := { s with slots := slots', mode := .idle, log := s.log ++ [.returned c.id, .done] }) rfl
            (fun x hx => ⟨halive x hx, hlt x (hsub.subset hx)⟩) (hnd.sublist hsub)
      · cases B with
        | nil =>
          exfalso
          apply hcl
          rw [hlast]
          rfl
        | cons b B =>
          have hst : step s .ret = { s with slots := slots', mode := .handler b.id last false, log := s.log ++ [.returned c.id, .called b.id] } := by
            simp only [step, ret, hm, hsg, hcon]
            rw [if_neg hcl]
            rw [hslots]
            rw [hs, after_mid hnd']
            rfl
          rw [hst]
          refine ⟨[.returned c.id, .called b.id], ⟨slots'.map pairOf, some (B.map Slot.id)⟩, rfl, ?_, ?_⟩
          · rw [show [Obs.returned c.id, Obs.called b.id] = [Obs.returned c.id] ++ [Obs.called b.id] from rfl, obsRun_append, hr1]
            simp [obsRun, obsStep]
          · refine Sim.handler (A := if marked then A else A ++ [c]) (B := B) (C := C) (c := b) (m := false) rfl ?_ ?_ ?_ ?_ ?_ ?_ ?_
            · simp only [slots']
              split <;> simp
            · exact hD b (by simp)
            · intro x hx
              apply halive
              simp only [slots']
              split at hx
              · rename_i hmk
                rw [if_pos hmk]
                simp only [List.mem_append, List.mem_cons] at hx ⊢
                rcases hx with hx | hx | hx <;> simp [hx]
              · rename_i hmk
                rw [if_neg hmk]
                simp only [List.mem_append, List.mem_cons, List.not_mem_nil, or_false] at hx ⊢
                rcases hx with (hx | hx) | hx | hx <;> simp [hx]
            · exact fun x hx => hlt x (hsub.subset hx)
            · exact hnd.sublist hsub
            · rw [hlast]; simp
            · simp only [slots']
              split <;> simp

/-! ### C36 -/

theorem clean_sim {s : St} (h : Clean s) : ∃ a, obsRun .init s.log = some a ∧ Sim s a := by
  induction h with
  | init => exact ⟨.init, rfl, Sim.idle (s := .init) rfl (by simp [St.init]) List.Pairwise.nil⟩
  | @step s op _ hc ih =>
    obtain ⟨a, h1, h2⟩ := ih
    obtain ⟨obs, a', h3, h4, h5⟩ := sim_step h2 op hc
    exact ⟨a', by rw [h3, obsRun_append, h1]; exact h4, h5⟩

/-- The sequence of connections, disconnections, emissions and handler calls of every history is one
the specification allows: an emission calls exactly the handlers connected when it started, once
each, in connection order; handlers connected meanwhile wait for the next emission; disconnected and
spent single-shot handlers are not called. (As long as no handler throws after disconnecting itself.) -/
theorem C36_emission_partial {s : St} (h : Clean s) : ∃ a, obsRun .init s.log = some a := by
  obtain ⟨a, h1, _⟩ := clean_sim h
  exact ⟨a, h1⟩

/-- In words, for a completed emission: the handlers called are those connected at its start. -/
theorem C36_completed_partial {s : St} (h : Clean s) (pre mid post : List Obs)
    (hl : s.log = pre ++ .emit :: mid ++ .done :: post) (hno : ∀ id, Obs.threw id ∉ mid) (hnd : Obs.done ∉ mid) :
    ∃ a, obsRun .init pre = some a ∧
      mid.filterMap (fun o => match o with | .called i => some i | _ => none) = a.conn.map Prod.fst := by
  obtain ⟨a, ha⟩ := C36_emission_partial h
  rw [hl, List.append_assoc, obsRun_append] at ha
  cases hp : obsRun .init pre with
  | none => rw [hp] at ha; cases ha
  | some p =>
    rw [hp] at ha
    refine ⟨p, rfl, ?_⟩
    simp only [Option.bind_some, List.cons_append, obsRun, obsStep] at ha
    split at ha
    · simp only [Option.bind_some] at ha
      -- walk through the emission
      have key : ∀ (mid : List Obs) (b : Abs) (l : List Nat), b.todo = some l → (∀ id, Obs.threw id ∉ mid) →
          Obs.done ∉ mid → obsRun b (mid ++ .done :: post) = some a →
          mid.filterMap (fun o => match o with | .called i => some i | _ => none) = l := by
        intro mid
        induction mid with
        | nil =>
          intro b l hb _ _ hr
          simp only [List.nil_append, obsRun, obsStep, hb] at hr
          split at hr
          · rename_i hl
            simp only [Option.some.injEq] at hl
            rw [hl]; rfl
          · cases hr
        | cons o mid ih =>
          intro b l hb hth hdn hr
          have hth' : ∀ id, Obs.threw id ∉ mid := fun id hx => hth id (List.mem_cons_of_mem _ hx)
          have hdn' : Obs.done ∉ mid := fun hx => hdn (List.mem_cons_of_mem _ hx)
          simp only [List.cons_append, obsRun] at hr
          cases o with
          | connected i sg => exact ih ⟨b.conn ++ [(i, sg)], b.todo⟩ l hb hth' hdn' hr
          | disconnected i => exact ih ⟨b.conn.filter (fun x => x.1 ≠ i), b.todo⟩ l hb hth' hdn' hr
          | returned i => exact ih ⟨b.conn.filter (fun x => ¬ (x.1 = i ∧ x.2 = true)), b.todo⟩ l hb hth' hdn' hr
          | emit => simp [obsStep, hb] at hr
          | threw i => exact absurd (List.mem_cons_self ..) (hth i)
          | done => exact absurd (List.mem_cons_self ..) hdn
          | called i =>
            simp only [obsStep, hb] at hr
            cases l with
            | nil => simp at hr
            | cons x rest =>
              simp only at hr
              by_cases hx : x = i
              · subst hx
                simp only [if_true, Option.bind_some] at hr
                have := ih _ rest rfl hth' hdn' hr
                simp only [List.filterMap_cons]
                rw [this]
              · simp [hx] at hr
      exact key mid _ _ rfl hno hnd ha
    · cases ha

/-- A connection reports whether its handler is connected. -/
theorem C36_isConnected_partial {s : St} (h : Clean s) (hm : s.mode ≠ .undefined) (i : Nat) :
    ∃ a, obsRun .init s.log = some a ∧ (isConnected s i = true ↔ ∃ sg, (i, sg) ∈ a.conn) := by
  obtain ⟨a, h1, h2⟩ := clean_sim h
  refine ⟨a, h1, ?_⟩
  cases h2 with
  | undefined hu => exact absurd hu hm
  | idle _ hal _ =>
    unfold isConnected
    simp only [List.any_eq_true, Bool.and_eq_true, decide_eq_true_eq, List.mem_map, pairOf, Prod.mk.injEq]
    constructor
    · rintro ⟨x, hx, rfl, _⟩; exact ⟨x.single, x, hx, rfl, rfl⟩
    · rintro ⟨sg, x, hx, rfl, _⟩; exact ⟨x, hx, rfl, (hal x hx).1⟩
  | @handler A B C c last m conn _ hs hca hal _ _ _ hconn =>
    unfold isConnected
    rw [hs, hconn]
    simp only [List.any_eq_true, Bool.and_eq_true, decide_eq_true_eq, List.mem_map, pairOf, Prod.mk.injEq]
    constructor
    · rintro ⟨x, hx, rfl, hxa⟩
      refine ⟨x.single, x, ?_, rfl, rfl⟩
      rcases List.mem_append.mp hx with hx | hx
      · exact List.mem_append_left _ hx
      · rcases List.mem_cons.mp hx with rfl | hx
        · have : m = false := by rw [hca] at hxa; simpa using hxa
          subst this
          simp
        · exact List.mem_append_right _ (List.mem_append_right _ hx)
    · rintro ⟨sg, x, hx, rfl, _⟩
      refine ⟨x, ?_, rfl, ?_⟩
      · rcases List.mem_append.mp hx with hx | hx
        · exact List.mem_append_left _ hx
        · rcases List.mem_append.mp hx with hx | hx
          · cases m <;> simp at hx
            subst hx; simp
          · exact List.mem_append_right _ (List.mem_cons_of_mem _ hx)
      · rcases List.mem_append.mp hx with hx | hx
        · exact hal x (List.mem_append_left _ hx)
        · rcases List.mem_append.mp hx with hx | hx
          · cases m <;> simp at hx
            subst hx; exact hca
          · exact hal x (List.mem_append_right _ hx)

/-- The full claim: a disconnected handler is never called again. -/
def C36_claim : Prop :=
  ∀ ops : List Op, (run .init ops).mode ≠ .undefined → ∀ pre id mid, (run .init ops).log ≠
    pre ++ Obs.disconnected id :: mid ++ [Obs.called id]

/-- It fails: a handler that disconnects itself and then throws stays in the list, although its
connection reports that it is disconnected, and is called by the next emission. -/
theorem C36_zombie_counterexample : ¬ C36_claim := by
  intro h
  exact h [.connect false, .emit, .disconnect 0, .throw, .emit] (by decide)
    [.connected 0 false, .emit, .called 0] 0 [.threw 0, .emit] (by decide)

/-- A single-shot handler that throws is not disconnected and runs again. -/
theorem C36_singleShot_counterexample :
    (run .init [.connect true, .emit, .throw, .emit]).log =
      [.connected 0 true, .emit, .called 0, .threw 0, .emit, .called 0] := by decide

/-- Without exceptions a single-shot handler is called at most once: after it returns it is not
connected. -/
theorem C36_singleShot_partial {s : St} (h : Clean s) (pre post : List Obs) (i : Nat)
    (hl : s.log = pre ++ .returned i :: post) (a : Abs) (ha : obsRun .init (pre ++ [.returned i]) = some a) :
    (i, true) ∉ a.conn := by
  rw [obsRun_append] at ha
  cases hp : obsRun .init pre with
  | none => rw [hp] at ha; cases ha
  | some p =>
    rw [hp] at ha
    simp only [Option.bind_some, obsRun, obsStep, Option.some.injEq] at ha
    subst ha
    simp

-- a history with self-disconnection, connection during emission and a single-shot handler
def sample : List Op := [.connect false, .connect true, .connect false, .emit, .disconnect 0, .connect false, .ret, .ret, .ret,
  .emit, .ret, .ret]

example : (run .init sample).log = [.connected 0 false, .connected 1 true, .connected 2 false, .emit, .called 0, .disconnected 0,
    .connected 3 false, .returned 0, .called 1, .returned 1, .called 2, .returned 2, .done,
    .emit, .called 2, .returned 2, .called 3, .returned 3, .done] := by decide

example : Clean (run .init sample) := by
  have : ∀ (ops : List Op) (s : St), Clean s → .throw ∉ ops → Clean (run s ops) := by
    intro ops
    induction ops with
    | nil => intro s h _; exact h
    | cons op ops ih =>
      intro s h hn
      exact ih _ (.step op h (fun ht => absurd (ht ▸ List.mem_cons_self ..) hn)) (fun hx => hn (List.mem_cons_of_mem _ hx))
  exact this _ _ .init (by decide)

end Ndn.Signal
