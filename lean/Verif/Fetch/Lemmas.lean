import Verif.Fetch.Spec
/- Invariant behind the correctness of the signals. -/
namespace Ndn.Fetch
open Spec

/-! Lists -/

theorem length_le_of_nodup_subset {α : Type} [DecidableEq α] {l m : List α} (hl : l.Nodup) (h : ∀ x ∈ l, x ∈ m) :
    l.length ≤ m.length := by
  induction l generalizing m with
  | nil => simp
  | cons a l ih =>
    have ha : a ∈ m := h a (by simp)
    rw [List.nodup_cons] at hl
    have := ih (m := m.erase a) hl.2 (by
      intro x hx
      have hne : x ≠ a := by rintro rfl; exact hl.1 hx
      exact (List.mem_erase_of_ne hne).2 (h x (by simp [hx])))
    rw [List.length_erase_of_mem ha] at this
    have hp : 0 < m.length := List.length_pos_of_mem ha
    simp only [List.length_cons]
    omega

/-! Logs -/

theorem ok_snoc {log : List Obs} {o : Obs} : Ok (log ++ [o]) ↔ Ok log ∧ Allowed log o := by
  constructor
  · intro h
    refine ⟨?_, h log o [] rfl⟩
    intro pre x post he
    exact h pre x (post ++ [o]) (by rw [he]; simp)
  · rintro ⟨h, ho⟩ pre x post he
    rcases List.eq_nil_or_concat post with rfl | ⟨l, b, rfl⟩
    · have he' : log ++ [o] = pre ++ [x] := he
      have h1 := List.append_inj_left' he' rfl
      have h2 := List.append_inj_right' he' rfl
      simp only [List.cons.injEq, and_true] at h2
      rw [← h1, ← h2]; exact ho
    · have he' : log ++ [o] = (pre ++ x :: l) ++ [b] := by rw [he]; simp
      have h1 := List.append_inj_left' he' rfl
      exact h pre x l h1

theorem hasSeg_mono {a b : List Obs} {i : Nat} {c : Bytes} (h : HasSeg a i c) : HasSeg (a ++ b) i c := by
  obtain ⟨d, hd, hi, hc⟩ := h
  exact ⟨d, List.mem_append_left _ hd, hi, hc⟩

def NoTerm (log : List Obs) : Prop := ∀ x ∈ log, terminal x = false

theorem noTerm_snoc {log : List Obs} {o : Obs} (h : NoTerm log) (ho : terminal o = false) : NoTerm (log ++ [o]) := by
  intro x hx
  rcases List.mem_append.1 hx with hx | hx
  · exact h x hx
  · rw [List.mem_singleton.1 hx]; exact ho

theorem lastFinal_snoc_none {log : List Obs} {o : Obs} (h : finalOf o = none) : lastFinal (log ++ [o]) = lastFinal log := by
  simp [lastFinal, List.filterMap_append, List.filterMap_cons, h]

theorem lastFinal_snoc_some {log : List Obs} {o : Obs} {f : Nat} (h : finalOf o = some f) : lastFinal (log ++ [o]) = some f := by
  simp [lastFinal, List.filterMap_append, List.filterMap_cons, h]

theorem delivered_snoc_inOrder (log : List Obs) (c : Bytes) : delivered (log ++ [.inOrder c]) = delivered log ++ [c] := by
  simp [delivered, List.filterMap_append]

/-! Buffers -/

theorem lookup_eq_some {k : Nat} {b : List (Nat × Bytes)} {c : Bytes} (h : lookup k b = some c) : (k, c) ∈ b := by
  simp only [lookup, Option.map_eq_some_iff] at h
  obtain ⟨x, hx, hc⟩ := h
  have h1 := List.find?_some hx
  have h2 := List.mem_of_find?_eq_some hx
  simp only [decide_eq_true_eq] at h1
  rw [← h1, ← hc]; exact h2

theorem lookup_none_iff {k : Nat} {b : List (Nat × Bytes)} : lookup k b = none ↔ hasKey k b = false := by
  simp [lookup, hasKey]

theorem lookup_isSome_iff {k : Nat} {b : List (Nat × Bytes)} : (∃ c, lookup k b = some c) ↔ hasKey k b = true := by
  cases h : lookup k b with
  | none => simp [lookup_none_iff.1 h]
  | some c =>
    simp only [Option.some.injEq, exists_eq', true_iff]
    cases hk : hasKey k b with
    | true => rfl
    | false => rw [lookup_none_iff.2 hk] at h; simp at h

theorem hasKey_append {k : Nat} {a b : List (Nat × Bytes)} : hasKey k (a ++ b) = (hasKey k a || hasKey k b) := by
  simp [hasKey]

theorem hasKey_filter {k j : Nat} {b : List (Nat × Bytes)} :
    hasKey k (b.filter (fun x => x.1 ≠ j)) = (decide (k ≠ j) && hasKey k b) := by
  induction b with
  | nil => simp [hasKey]
  | cons x b ih =>
    simp only [hasKey] at ih ⊢
    by_cases hx : x.1 = j
    · rw [List.filter_cons_of_neg (by simp [hx]), ih, List.any_cons]
      by_cases hk : k = j
      · simp [hk]
      · have : decide (x.1 = k) = false := by simp; omega
        rw [this]; simp
    · rw [List.filter_cons_of_pos (by simp [hx]), List.any_cons, ih, List.any_cons]
      by_cases hk : k = j
      · have : decide (x.1 = k) = false := by simp; omega
        rw [this]; simp [hk]
      · simp [hk]

/-! The invariant -/

def core (s : St) : List (Nat × Nat) := s.pending.map (fun p => (p.seg, p.node))

structure Inv (s : St) : Prop where
  ok : s.log.length < 2 ^ 63 → Ok s.log
  segNodup : ((core s).map Prod.fst).Nodup
  nodeNodup : ((core s).map Prod.snd).Nodup
  nodeLt : ∀ p ∈ core s, p.2 < s.nextId
  valLt : ∀ v ∈ s.validating, v.node < s.nextId
  recNil : s.received = [] → s.buffer = [] ∧ (∀ p ∈ core s, p.1 = 0) ∧ s.next = 0 ∧ s.retx = [] ∧ s.nextInOrder = 0
  fresh : s.received ≠ [] → ∀ p ∈ core s, hasKey p.1 s.buffer = false ∧ p.1 < s.next
  valid : ∀ v ∈ s.validating, Obs.received v.data ∈ s.log ∧ (∃ k, v.data.seg = some k) ∧
    (∀ f, v.data.final = some (some f) → f < 2 ^ 64) ∧
    (s.received ≠ [] → ∀ p ∈ core s, p.2 = v.node → v.data.seg = some p.1)
  buf : ∀ k c, (k, c) ∈ s.buffer → HasSeg s.log k c
  recd : ∀ k ∈ s.received, hasKey k s.buffer = true ∨ (s.cfg.inOrder = true ∧ k < s.nextInOrder)
  deliv : (delivered s.log).length = s.nextInOrder
  recLen : s.received.length ≤ s.log.length
  recNodup : s.received.Nodup

/-- Only these fields matter. -/
theorem Inv.congr {s t : St} (h : Inv s) (h1 : t.log = s.log) (h2 : core t = core s) (h3 : t.nextId = s.nextId)
    (h4 : t.validating = s.validating) (h5 : t.received = s.received) (h6 : t.buffer = s.buffer)
    (h7 : t.next = s.next) (h8 : t.retx = s.retx) (h9 : t.nextInOrder = s.nextInOrder) (h10 : t.cfg = s.cfg) : Inv t := by
  obtain ⟨a, b, c, d, e, f, g, i, j, k, l, m, n⟩ := h
  constructor <;> simp only [h1, h2, h3, h4, h5, h6, h7, h8, h9, h10] <;> assumption

/-- Dropping pending segments and validations, appending neutral signals. -/
theorem Inv.sublist {s t : St} (h : Inv s) (h1 : t.log = s.log) (h2 : (core t).Sublist (core s)) (h3 : t.nextId = s.nextId)
    (h4 : t.validating.Sublist s.validating) (h5 : t.received = s.received) (h6 : t.buffer = s.buffer)
    (h7 : t.next = s.next) (h8 : t.retx = s.retx) (h9 : t.nextInOrder = s.nextInOrder) (h10 : t.cfg = s.cfg) : Inv t := by
  obtain ⟨a, b, c, d, e, f, g, i, j, k, l, m, n⟩ := h
  have hs := h2.subset
  have hv := h4.subset
  constructor <;> (try simp only [h1, h3, h5, h6, h7, h8, h9, h10])
  · exact a
  · exact (h2.map _).nodup b
  · exact (h2.map _).nodup c
  · exact fun p hp => d p (hs hp)
  · exact fun v hp => e v (hv hp)
  · intro hr
    obtain ⟨x1, x2, x3⟩ := f hr
    exact ⟨x1, fun p hp => x2 p (hs hp), x3⟩
  · exact fun hr p hp => g hr p (hs hp)
  · intro v hvv
    obtain ⟨x1, x2, x3, x4⟩ := i v (hv hvv)
    exact ⟨x1, x2, x3, fun hr p hp => x4 hr p (hs hp)⟩
  · exact j
  · exact k
  · exact l
  · exact m
  · exact n

theorem Inv.window {s t : St} (h : Inv s) (hr : s.received ≠ []) (h1 : t.log = s.log) (h2 : core t = core s) (h3 : t.nextId = s.nextId)
    (h4 : t.validating = s.validating) (h5 : t.received = s.received) (h6 : t.buffer = s.buffer)
    (h7 : s.next ≤ t.next) (h9 : t.nextInOrder = s.nextInOrder) (h10 : t.cfg = s.cfg) : Inv t := by
  obtain ⟨a, b, c, d, e, f, g, i, j, k, l, m, n⟩ := h
  refine ⟨by rw [h1]; exact a, by rw [h2]; exact b, by rw [h2]; exact c, by rw [h2, h3]; exact d, by rw [h3, h4]; exact e,
    fun hr' => absurd (h5 ▸ hr') hr, ?_, ?_, by rw [h1, h6]; exact j, by rw [h5, h6, h9, h10]; exact k, by rw [h1, h9]; exact l,
    by rw [h1, h5]; exact m, by rw [h5]; exact n⟩
  · intro _ p hp
    rw [h2] at hp
    have := g hr p hp
    rw [h6]
    exact ⟨this.1, by omega⟩
  · rw [h1, h2, h4, h5]; exact i

theorem Inv.log {s : St} {o : Obs} (h : Inv s) (ho : Allowed s.log o) (hd : delivered (s.log ++ [o]) = delivered s.log) :
    Inv { s with log := s.log ++ [o] } := by
  obtain ⟨a, b, c, d, e, f, g, i, j, k, l, m, n⟩ := h
  constructor <;> try assumption
  · intro hl
    simp only [List.length_append, List.length_singleton] at hl
    exact ok_snoc.2 ⟨a (by omega), ho⟩
  · intro v hv
    obtain ⟨x1, x2⟩ := i v hv
    exact ⟨List.mem_append_left _ x1, x2⟩
  · intro k c hk
    exact hasSeg_mono (j k c hk)
  · show (delivered (s.log ++ [o])).length = _
    rw [hd]; exact l
  · show s.received.length ≤ (s.log ++ [o]).length
    simp; omega

@[simp] theorem cancel_fields (s : St) (l : List Nat) :
    (cancel s l).log = s.log ∧ (cancel s l).pending = s.pending ∧ (cancel s l).nextId = s.nextId ∧
    (cancel s l).validating = s.validating ∧ (cancel s l).received = s.received ∧ (cancel s l).buffer = s.buffer ∧
    (cancel s l).next = s.next ∧ (cancel s l).retx = s.retx ∧ (cancel s l).nextInOrder = s.nextInOrder ∧
    (cancel s l).cfg = s.cfg ∧ (cancel s l).stopped = s.stopped ∧ (cancel s l).nSeg = s.nSeg ∧
    (cancel s l).inFlight = s.inFlight ∧ (cancel s l).nReceived = s.nReceived ∧ (cancel s l).versioned = s.versioned ∧
    (cancel s l).now = s.now ∧ (cancel s l).lastRecv = s.lastRecv ∧ (cancel s l).ub = s.ub := by
  unfold cancel; split <;> simp

theorem stop_inv {s : St} (h : Inv s) : Inv (stop s) := by
  unfold stop
  split
  · exact h
  · apply h.sublist <;> simp [core]

theorem stop_log (s : St) : (stop s).log = s.log := by unfold stop; split <;> simp

theorem stop_stopped (s : St) : (stop s).stopped = true := by unfold stop; split <;> simp_all

/-- The stopped state and the FinalBlockId. -/
def Term (s : St) : Prop := NoTerm s.log ∨ s.stopped = true

structure FinalOk (s : St) : Prop where
  lt : ∀ f, lastFinal s.log = some f → f < 2 ^ 64
  nSeg : s.nSeg = match lastFinal s.log with | none => 0 | some f => (f + 1) % 2 ^ 64

theorem FinalOk.congr {s t : St} (h : FinalOk s) (h1 : lastFinal t.log = lastFinal s.log) (h2 : t.nSeg = s.nSeg) : FinalOk t := by
  obtain ⟨a, b⟩ := h
  constructor
  · rw [h1]; exact a
  · rw [h1, h2]; exact b

theorem stop_nSeg (s : St) : (stop s).nSeg = s.nSeg := by unfold stop; split <;> simp

theorem stop_finalOk {s : St} (h : FinalOk s) : FinalOk (stop s) := h.congr (by rw [stop_log]) (stop_nSeg s)

theorem error_inv {s : St} {code : Nat} (h : Inv s) (hn : NoTerm s.log) : Inv (error s code) := by
  unfold error
  apply stop_inv
  apply h.log
  · exact ⟨hn, trivial⟩
  · simp [delivered, List.filterMap_append]

theorem error_finalOk {s : St} {code : Nat} (h : FinalOk s) : FinalOk (error s code) := by
  unfold error
  apply stop_finalOk
  exact h.congr (lastFinal_snoc_none rfl) rfl

theorem error_term (s : St) (code : Nat) : Term (error s code) := Or.inr (stop_stopped _)

/-- The next segment to deliver is not waiting in the buffer. -/
def Ahead (s : St) : Prop := s.cfg.inOrder = true → hasKey s.nextInOrder s.buffer = false

/-- All together, for the end of an event. -/
def Good (s : St) : Prop := Inv s ∧ FinalOk s ∧ Term s ∧ (s.stopped = true ∨ Ahead s)

theorem error_good {s : St} {code : Nat} (h : Inv s) (hf : FinalOk s) (hn : NoTerm s.log) : Good (error s code) :=
  ⟨error_inv h hn, error_finalOk hf, error_term s code, Or.inl (stop_stopped _)⟩

/-! Sending -/

theorem core_map (s : St) (f : Pend → Pend) (hf : ∀ p, (f p).seg = p.seg ∧ (f p).node = p.node) (t : St)
    (ht : t.pending = s.pending.map f) : core t = core s := by
  unfold core
  rw [ht, List.map_map]
  apply List.map_congr_left
  intro p _
  simp [hf p]

theorem send_fields (s : St) (seg : Nat) (k : Kind) (r : Bool) :
    (send s seg k r).log = s.log ∧ (send s seg k r).validating = s.validating ∧ (send s seg k r).received = s.received ∧
    (send s seg k r).buffer = s.buffer ∧ (send s seg k r).next = s.next ∧ (send s seg k r).retx = s.retx ∧
    (send s seg k r).nextInOrder = s.nextInOrder ∧ (send s seg k r).cfg = s.cfg ∧ (send s seg k r).stopped = s.stopped ∧
    (send s seg k r).nSeg = s.nSeg ∧ (send s seg k r).versioned = s.versioned ∧ (send s seg k r).nextId = s.nextId + 1 ∧
    (send s seg k r).nReceived = s.nReceived ∧ (send s seg k r).inFlight = s.inFlight + 1 ∧
    (send s seg k r).now = s.now ∧ (send s seg k r).lastRecv = s.lastRecv := by
  unfold send
  simp only
  repeat' split
  all_goals simp

theorem send_core_retx (s : St) (seg : Nat) (k : Kind) : core (send s seg k true) = core s := by
  unfold send
  simp only [if_true]
  split
  · rfl
  · apply core_map s (fun q => if q.seg = seg then { q with iid := s.nextId, kind := k, timer := true } else q)
    · intro p; split <;> simp
    · rfl

theorem send_core_new (s : St) (seg : Nat) (k : Kind) :
    core (send s seg k false) = if s.pending.any (fun p => p.seg = seg) then core s else core s ++ [(seg, s.nextId)] := by
  unfold send
  simp only [Bool.false_eq_true, if_false]
  split <;> simp [core]

theorem core_any (s : St) (seg : Nat) : s.pending.any (fun p => p.seg = seg) = false ↔ seg ∉ (core s).map Prod.fst := by
  simp [core]

theorem send_inv {s : St} {seg : Nat} {k : Kind} {r : Bool} (h : Inv s)
    (h0 : s.received = [] → seg = 0)
    (h1 : s.received ≠ [] → r = false → hasKey seg s.buffer = false ∧ seg < s.next) : Inv (send s seg k r) := by
  obtain ⟨f1, f2, f3, f4, f5, f6, f7, f8, f9, f10, f11, f12, _⟩ := send_fields s seg k r
  have hc : core (send s seg k r) = core s ∨ (r = false ∧ seg ∉ (core s).map Prod.fst ∧ core (send s seg k r) = core s ++ [(seg, s.nextId)]) := by
    cases r with
    | true => exact Or.inl (send_core_retx s seg k)
    | false =>
      rw [send_core_new]
      by_cases ha : s.pending.any (fun p => p.seg = seg) = true
      · rw [if_pos ha]; exact Or.inl rfl
      · rw [if_neg ha]
        exact Or.inr ⟨rfl, (core_any s seg).1 (by simpa using ha), rfl⟩
  obtain ⟨a, b, c, d, e, f, g, i, j, kk, l, m, n⟩ := h
  rcases hc with hc | ⟨hr, hn, hc⟩
  · constructor <;> simp only [f1, f2, f3, f4, f5, f6, f7, f8, f12, hc] <;> try assumption
    · intro p hp; have := d p hp; omega
    · intro v hv; have := e v hv; omega
  · constructor <;> simp only [f1, f2, f3, f4, f5, f6, f7, f8, f12, hc] <;> try assumption
    · rw [List.map_append, List.nodup_append]
      refine ⟨b, by simp, ?_⟩
      intro x hx y hy
      simp only [List.map_cons, List.map_nil, List.mem_singleton] at hy
      intro e; rw [e, hy] at hx; exact hn hx
    · rw [List.map_append, List.nodup_append]
      refine ⟨c, by simp, ?_⟩
      intro x hx y hy
      simp only [List.map_cons, List.map_nil, List.mem_singleton] at hy
      obtain ⟨p, hp, rfl⟩ := List.mem_map.1 hx
      have := d p hp
      omega
    · intro p hp
      rcases List.mem_append.1 hp with hp | hp
      · have := d p hp; omega
      · rw [List.mem_singleton.1 hp]; exact Nat.lt_succ_self _
    · intro v hv; have := e v hv; omega
    · intro hr'
      obtain ⟨x1, x2, x3⟩ := f hr'
      refine ⟨x1, ?_, x3⟩
      intro p hp
      rcases List.mem_append.1 hp with hp | hp
      · exact x2 p hp
      · rw [List.mem_singleton.1 hp]; exact h0 hr'
    · intro hr' p hp
      rcases List.mem_append.1 hp with hp | hp
      · exact g hr' p hp
      · rw [List.mem_singleton.1 hp]; exact h1 hr' hr
    · intro v hv
      obtain ⟨x1, x2, x3, x4⟩ := i v hv
      refine ⟨x1, x2, x3, ?_⟩
      intro hr' p hp hpn
      rcases List.mem_append.1 hp with hp | hp
      · exact x4 hr' p hp hpn
      · rw [List.mem_singleton.1 hp] at hpn
        have := e v hv
        simp only at hpn
        omega

/-- Sending many. -/
theorem sends_fields (l : List Nat) (r : Bool) (s : St) (t : St)
    (ht : t = l.foldl (fun s k => send s k (.exact s.versioned k) r) s) :
    t.log = s.log ∧ t.validating = s.validating ∧ t.received = s.received ∧ t.buffer = s.buffer ∧ t.next = s.next ∧
    t.retx = s.retx ∧ t.nextInOrder = s.nextInOrder ∧ t.cfg = s.cfg ∧ t.stopped = s.stopped ∧ t.nSeg = s.nSeg ∧
    t.versioned = s.versioned ∧ t.nReceived = s.nReceived ∧ t.inFlight = s.inFlight + l.length ∧
    t.now = s.now ∧ t.lastRecv = s.lastRecv := by
  induction l generalizing s with
  | nil => subst ht; simp
  | cons k l ih =>
    have := ih (send s k (.exact s.versioned k) r) (by rw [ht]; rfl)
    have f := send_fields s k (.exact s.versioned k) r
    simp only [f] at this
    simp only [this, List.length_cons, true_and, and_true]
    omega

theorem sends_inv {l : List Nat} {r : Bool} {s : St} (h : Inv s) (hr : s.received ≠ [])
    (h1 : r = false → ∀ k ∈ l, hasKey k s.buffer = false ∧ k < s.next) :
    Inv (l.foldl (fun s k => send s k (.exact s.versioned k) r) s) := by
  induction l generalizing s with
  | nil => exact h
  | cons k l ih =>
    have f := send_fields s k (.exact s.versioned k) r
    apply ih
    · apply send_inv h
      · intro e; exact absurd e hr
      · intro _ hr'; exact h1 hr' k (by simp)
    · rw [f.2.2.1]; exact hr
    · intro hr' j hj
      have := h1 hr' j (by simp [hj])
      rw [f.2.2.2.1, f.2.2.2.2.1]; exact this

/-! The window -/

theorem skip_ge (b : List (Nat × Bytes)) (m : Nat) (fuel n : Nat) : n ≤ skip b m fuel n := by
  induction fuel generalizing n with
  | zero => exact Nat.le_refl _
  | succ f ih =>
    unfold skip
    split
    · have := ih (n + 1); omega
    · exact Nat.le_refl _

/-- All numbers passed over are in the buffer. -/
theorem skip_passed (b : List (Nat × Bytes)) (m : Nat) (fuel n : Nat) :
    ∀ k, n ≤ k → k < skip b m fuel n → hasKey k b = true ∧ (m = 0 ∨ k < m) := by
  induction fuel generalizing n with
  | zero => intro k h1 h2; simp only [skip] at h2; omega
  | succ f ih =>
    intro k h1 h2
    unfold skip at h2
    split at h2
    · rename_i hc
      rcases Nat.eq_or_lt_of_le h1 with rfl | h3
      · exact ⟨hc.2, hc.1⟩
      · exact ih (n + 1) k h3 h2
    · omega

/-- The first number not in the buffer is found. -/
theorem skip_stop (b : List (Nat × Bytes)) (m : Nat) (fuel n : Nat) (hf : (b.filter (fun x => n ≤ x.1)).length ≤ fuel)
    (hm : m = 0 ∨ skip b m fuel n < m) : hasKey (skip b m fuel n) b = false := by
  induction fuel generalizing n with
  | zero =>
    simp only [skip]
    simp only [Nat.le_zero, List.length_eq_zero_iff, List.filter_eq_nil_iff] at hf
    simp only [hasKey, List.any_eq_false]
    intro x hx
    have := hf x hx
    simp only [decide_eq_true_eq] at this ⊢
    omega
  | succ f ih =>
    unfold skip at hm ⊢
    split
    · rename_i hc
      rw [if_pos hc] at hm
      apply ih
      · have h2 := hc.2
        simp only [hasKey, List.any_eq_true, decide_eq_true_eq] at h2
        obtain ⟨x, hx, he⟩ := h2
        have : (b.filter (fun x => n + 1 ≤ x.1)).length < (b.filter (fun x => n ≤ x.1)).length := by
          clear hf ih hm hc
          induction b with
          | nil => simp at hx
          | cons y b ihb =>
            have hsub : (b.filter (fun x => n + 1 ≤ x.1)).length ≤ (b.filter (fun x => n ≤ x.1)).length := by
              have h3 : b.filter (fun x => n + 1 ≤ x.1) = (b.filter (fun x => n ≤ x.1)).filter (fun x => n + 1 ≤ x.1) := by
                rw [List.filter_filter]
                apply List.filter_congr
                intro z _
                by_cases hz : n + 1 ≤ z.1
                · have : n ≤ z.1 := by omega
                  simp [hz, this]
                · simp [hz]
              rw [h3]
              exact List.length_filter_le _ _
            simp only [List.filter_cons]
            rcases List.mem_cons.1 hx with rfl | hx'
            · have e1 : ¬ (n + 1 ≤ x.1) := by omega
              have e2 : n ≤ x.1 := by omega
              simp only [e1, e2, decide_false, decide_true, if_true, Bool.false_eq_true, if_false, List.length_cons]
              omega
            · have := ihb hx'
              by_cases e1 : n + 1 ≤ y.1 <;> by_cases e2 : n ≤ y.1 <;> simp only [e1, e2, decide_false, decide_true, if_true, Bool.false_eq_true, if_false, List.length_cons] <;> omega
        omega
      · exact hm
    · rename_i hc
      rw [if_neg hc] at hm
      cases hk : hasKey n b with
      | false => rfl
      | true => exact absurd ⟨hm, hk⟩ hc

theorem takeNew_spec (b : List (Nat × Bytes)) (m a n : Nat) (l : List Nat) (nx : Nat) (h : takeNew b m a n = (l, nx)) :
    n ≤ nx ∧ l.Nodup ∧ (∀ k ∈ l, hasKey k b = false ∧ n ≤ k ∧ k < nx ∧ (m = 0 ∨ k < m)) ∧
    (∀ k, n ≤ k → k < nx → k ∈ l ∨ hasKey k b = true) ∧ l.length ≤ a ∧
    (l.length < a → m ≠ 0 ∧ m ≤ nx) := by
  induction a generalizing n l nx with
  | zero =>
    simp only [takeNew, Prod.mk.injEq] at h
    obtain ⟨rfl, rfl⟩ := h
    refine ⟨Nat.le_refl _, by simp, by simp, ?_, by simp, by simp⟩
    intro k h1 h2; omega
  | succ a ih =>
    unfold takeNew at h
    simp only at h
    have hge := skip_ge b m b.length n
    split at h
    · rename_i hm
      simp only [Prod.mk.injEq] at h
      obtain ⟨rfl, rfl⟩ := h
      obtain ⟨i1, i2, i3, i4, i5, i6⟩ := ih (skip b m b.length n + 1) _ _ rfl
      have hst := skip_stop b m b.length n (List.length_filter_le _ _) hm
      refine ⟨by omega, ?_, ?_, ?_, ?_, ?_⟩
      · rw [List.nodup_cons]
        refine ⟨?_, i2⟩
        intro hmem
        have := (i3 _ hmem).2.1
        omega
      · intro k hk
        rcases List.mem_cons.1 hk with rfl | hk
        · exact ⟨hst, hge, by omega, hm⟩
        · have := i3 k hk
          exact ⟨this.1, by omega, this.2.2⟩
      · intro k h1 h2
        by_cases h3 : k < skip b m b.length n
        · exact Or.inr (skip_passed b m _ n k h1 h3).1
        · by_cases h4 : k = skip b m b.length n
          · left; rw [h4]; simp
          · rcases i4 k (by omega) h2 with h5 | h5
            · left; simp [h5]
            · exact Or.inr h5
      · simp only [List.length_cons]; omega
      · intro h1
        simp only [List.length_cons] at h1
        exact i6 (by omega)
    · rename_i hm
      simp only [Prod.mk.injEq] at h
      obtain ⟨rfl, rfl⟩ := h
      refine ⟨hge, by simp, by simp, ?_, by simp, ?_⟩
      · intro k h1 h2
        exact Or.inr (skip_passed b m _ n k h1 h2).1
      · intro _; omega

/-- The list of missing segments covers the object. -/
theorem nSeg_le_received {s : St} (hm : (missing s).isEmpty = true) : s.nSeg ≤ s.received.length := by
  have h1 : ∀ i ∈ List.range s.nSeg, i ∈ s.received := by
    intro i hi
    rw [List.isEmpty_iff] at hm
    unfold missing at hm
    have := List.filter_eq_nil_iff.1 hm i hi
    simpa using this
  have := length_le_of_nodup_subset List.nodup_range h1
  simpa using this

theorem finalize_good {s : St} (h : Inv s) (hf : FinalOk s) (hn : NoTerm s.log) (ha : Ahead s) (he : enough s = true)
    (hm : (missing s).isEmpty = true) : Good (finalize s) := by
  have hlen := nSeg_le_received hm
  have hall : ∀ i, i < s.nSeg → i ∈ s.received := by
    intro i hi
    rw [List.isEmpty_iff] at hm
    unfold missing at hm
    have := List.filter_eq_nil_iff.1 hm i (List.mem_range.2 hi)
    simpa using this
  have hne : s.nSeg ≠ 0 := by
    unfold enough at he; simp at he; exact he.1
  obtain ⟨f, hlf, hnf⟩ : ∃ f, lastFinal s.log = some f ∧ s.nSeg = f + 1 := by
    have h1 := hf.nSeg
    cases hl : lastFinal s.log with
    | none => rw [hl] at h1; exact absurd h1 hne
    | some f =>
      rw [hl] at h1
      simp only at h1
      have h2 := hf.lt f hl
      refine ⟨f, rfl, ?_⟩
      by_cases h3 : f + 1 = 2 ^ 64
      · rw [h3] at h1; simp at h1; exact absurd h1 hne
      · rw [h1]; exact Nat.mod_eq_of_lt (by omega)
  unfold finalize
  by_cases hi : s.cfg.inOrder = true
  · rw [if_pos hi]
    refine ⟨stop_inv (h.log ⟨hn, f, hlf, ?_⟩ (by simp [delivered, List.filterMap_append])), stop_finalOk (hf.congr (lastFinal_snoc_none rfl) rfl), Or.inr (stop_stopped _), Or.inl (stop_stopped _)⟩
    rw [h.deliv]
    apply Classical.byContradiction
    intro hlt
    rcases h.recd s.nextInOrder (hall _ (by omega)) with hk | hk
    · rw [ha hi] at hk; simp at hk
    · omega
  · rw [if_neg hi]
    refine ⟨stop_inv ?_, stop_finalOk (hf.congr (lastFinal_snoc_none rfl) rfl), Or.inr (stop_stopped _), Or.inl (stop_stopped _)⟩
    by_cases hbig : s.log.length < 2 ^ 63
    · apply h.log
      · refine ⟨hn, f, _, hlf, ?_, ?_, rfl⟩
        · have : toI64 s.nSeg = s.nSeg := by
            unfold toI64; rw [if_pos]; have := h.recLen; omega
          rw [List.length_map, List.length_range, this, hnf]; simp
        · intro i c hc
          have : toI64 s.nSeg = s.nSeg := by
            unfold toI64; rw [if_pos]; have := h.recLen; omega
          simp only [this, Int.toNat_natCast, List.getElem?_map, Option.map_eq_some_iff] at hc
          obtain ⟨a, ha', rfl⟩ := hc
          obtain ⟨h1, h2⟩ := List.getElem?_eq_some_iff.1 ha'
          simp only [List.length_range] at h1
          simp only [List.getElem_range] at h2
          subst h2
          have hk : hasKey i s.buffer = true := by
            rcases h.recd i (hall _ h1) with hk | hk
            · exact hk
            · exact absurd hk.1 hi
          obtain ⟨c, hc⟩ := lookup_isSome_iff.2 hk
          rw [hc]
          exact h.buf i c (lookup_eq_some hc)
      · simp [delivered, List.filterMap_append]
    · obtain ⟨a, b, c, d, e, f', g, i, j, kk, l, m, n⟩ := h
      constructor <;> try assumption
      · intro hl; simp only [List.length_append] at hl; omega
      · intro v hv
        obtain ⟨x1, x2⟩ := i v hv
        exact ⟨List.mem_append_left _ x1, x2⟩
      · intro k c hk
        exact hasSeg_mono (j k c hk)
      · simpa [delivered, List.filterMap_append] using l
      · simp only [List.length_append]; omega

theorem takeRetx_mem (p : List Pend) (a : Int) (q : List Nat) : ∀ k ∈ (takeRetx p a q).1, p.any (fun x => x.seg = k) = true := by
  induction q generalizing a with
  | nil => simp [takeRetx]
  | cons k q ih =>
    intro j hj
    unfold takeRetx at hj
    split at hj
    · simp at hj
    · split at hj
      · rename_i hc
        simp only at hj
        rcases List.mem_cons.1 hj with rfl | hj
        · exact hc
        · exact ih _ j hj
      · exact ih _ j hj

/-- The parts of `fetchWindow` that do not concern pending segments. -/
theorem fetchWindow_good {s : St} {w : Nat} (h : Inv s) (hf : FinalOk s) (hn : NoTerm s.log) (ha : Ahead s)
    (hr : s.received ≠ []) : Good (fetchWindow s w) := by
  unfold fetchWindow
  split
  · rename_i hc
    rw [Bool.and_eq_true] at hc
    exact finalize_good h hf hn ha hc.1 hc.2
  · simp only
    generalize hs1 : (if enough s = true then { s with retx := s.retx ++ missing s } else s : St) = s1
    have g1 : s1.log = s.log ∧ core s1 = core s ∧ s1.nextId = s.nextId ∧ s1.validating = s.validating ∧
        s1.received = s.received ∧ s1.buffer = s.buffer ∧ s1.next = s.next ∧ s1.nextInOrder = s.nextInOrder ∧ s1.cfg = s.cfg ∧ s1.nSeg = s.nSeg := by
      subst hs1; split <;> simp [core]
    obtain ⟨a1, a2, a3, a4, a5, a6, a7, a8, a9, a10⟩ := g1
    generalize hrr : takeRetx s1.pending (avail s1 w) s1.retx = rr
    cases hnn : takeNew s1.buffer s1.nSeg rr.2.1.toNat s1.next with
    | mk l nx =>
    obtain ⟨t1, t2, t3, t4, t5⟩ := takeNew_spec _ _ _ _ _ _ hnn
    simp only
    generalize hs2 : ({ s1 with retx := rr.2.2, next := nx } : St) = s2
    have g2 : Inv s2 := by
      subst hs2
      exact h.window hr a1 a2 a3 a4 a5 a6 (by rw [a7] at t1; exact t1) a8 a9
    have b1 : s2.log = s.log := by subst hs2; exact a1
    have b2 : s2.received = s.received := by subst hs2; exact a5
    have b3 : s2.buffer = s.buffer := by subst hs2; exact a6
    have b4 : s2.next = nx := by subst hs2; rfl
    have b5 : s2.nSeg = s.nSeg := by subst hs2; exact a10
    have b6 : s2.cfg = s.cfg := by subst hs2; exact a9
    have b7 : s2.nextInOrder = s.nextInOrder := by subst hs2; exact a8
    generalize hs3 : rr.1.foldl (fun s k => send s k (.exact s.versioned k) true) s2 = s3
    have g3 : Inv s3 := by
      rw [← hs3]
      exact sends_inv g2 (by rw [b2]; exact hr) (by simp)
    have c := sends_fields rr.1 true s2 s3 hs3.symm
    generalize hs4 : l.foldl (fun s k => send s k (.exact s.versioned k) false) s3 = s4
    have d := sends_fields l false s3 s4 hs4.symm
    have g4 : Inv s4 := by
      rw [← hs4]
      apply sends_inv g3
      · rw [c.2.2.1, b2]; exact hr
      · intro _ k hk
        have := t3 k hk
        rw [c.2.2.2.1, c.2.2.2.2.1, b3, b4]
        rw [a6] at this
        exact ⟨this.1, this.2.2.1⟩
    obtain ⟨c1, c2, c3, c4, c5, c6, c7, c8, c9, c10, _⟩ := c
    obtain ⟨d1, d2, d3, d4, d5, d6, d7, d8, d9, d10, _⟩ := d
    refine ⟨g4, hf.congr (by rw [d1, c1, b1]) (by rw [d10, c10, b5]), Or.inl (by rw [d1, c1, b1]; exact hn), Or.inr ?_⟩
    unfold Ahead
    rw [d8, c8, b6, d7, c7, b7, d4, c4, b3]
    exact ha

/-! Data -/

theorem cancelExcess_fields (s : St) :
    (cancelExcess s).log = s.log ∧ (cancelExcess s).nextId = s.nextId ∧ (cancelExcess s).validating = s.validating ∧
    (cancelExcess s).received = s.received ∧ (cancelExcess s).buffer = s.buffer ∧ (cancelExcess s).next = s.next ∧
    (cancelExcess s).retx = s.retx ∧ (cancelExcess s).nextInOrder = s.nextInOrder ∧ (cancelExcess s).cfg = s.cfg ∧
    (cancelExcess s).stopped = s.stopped ∧ (cancelExcess s).nSeg = s.nSeg ∧ (cancelExcess s).versioned = s.versioned ∧
    (cancelExcess s).nReceived = s.nReceived ∧ (cancelExcess s).pending = s.pending.filter (fun p => p.seg < s.nSeg) ∧
    (cancelExcess s).inFlight = s.inFlight - (s.pending.filter (fun p => p.seg ≥ s.nSeg)).length ∧
    (cancelExcess s).ub = s.ub ∧ (cancelExcess s).now = s.now ∧ (cancelExcess s).lastRecv = s.lastRecv := by
  simp [cancelExcess]

theorem takeFinal_fields (s : St) (d : Data) :
    (takeFinal s d).log = s.log ∧ (takeFinal s d).nextId = s.nextId ∧ (takeFinal s d).validating = s.validating ∧
    (takeFinal s d).received = s.received ∧ (takeFinal s d).buffer = s.buffer ∧ (takeFinal s d).next = s.next ∧
    (takeFinal s d).retx = s.retx ∧ (takeFinal s d).nextInOrder = s.nextInOrder ∧ (takeFinal s d).cfg = s.cfg ∧
    (takeFinal s d).stopped = s.stopped ∧ (takeFinal s d).versioned = s.versioned ∧
    (takeFinal s d).nReceived = s.nReceived ∧ (takeFinal s d).pending.Sublist s.pending ∧ (takeFinal s d).ub = s.ub ∧
    (takeFinal s d).nSeg = (match d.final with | some (some f) => (f + 1) % 2 ^ 64 | _ => s.nSeg) ∧
    (takeFinal s d).now = s.now ∧ (takeFinal s d).lastRecv = s.lastRecv := by
  unfold takeFinal
  split
  · rename_i f hf
    split
    · have c := cancelExcess_fields { s with nSeg := (f + 1) % 2 ^ 64 }
      simp only [c, true_and, and_true, hf]
      exact List.filter_sublist
    · rename_i hc
      have : (f + 1) % 2 ^ 64 = s.nSeg := by omega
      simp only [hf, this, List.Sublist.refl, and_self]
  · rename_i hne
    refine ⟨rfl, rfl, rfl, rfl, rfl, rfl, rfl, rfl, rfl, rfl, rfl, rfl, List.Sublist.refl _, rfl, ?_, rfl, rfl⟩
    split
    · rename_i f hf; exact absurd hf (hne f)
    · rfl

theorem takeFinal_inv {s : St} {d : Data} (h : Inv s) : Inv (takeFinal s d) := by
  have c := takeFinal_fields s d
  apply h.sublist <;> first | (simp [c]; done) | skip
  exact List.Sublist.map _ c.2.2.2.2.2.2.2.2.2.2.2.2.1

theorem deliver_spec (fuel : Nat) (s : St) (h : Inv s) (hi : s.cfg.inOrder = true) (hr : s.received ≠ []) (hn : NoTerm s.log)
    (hf : s.buffer.length ≤ fuel) :
    Inv (deliver fuel s) ∧ NoTerm (deliver fuel s).log ∧ Ahead (deliver fuel s) ∧
    lastFinal (deliver fuel s).log = lastFinal s.log ∧ (deliver fuel s).nSeg = s.nSeg ∧
    (deliver fuel s).received = s.received ∧ (deliver fuel s).cfg = s.cfg := by
  induction fuel generalizing s with
  | zero =>
    unfold deliver
    refine ⟨h, hn, ?_, rfl, rfl, rfl, rfl⟩
    intro _
    have : s.buffer = [] := List.length_eq_zero_iff.1 (by omega)
    rw [this]; rfl
  | succ fuel ih =>
    unfold deliver
    cases hl : lookup s.nextInOrder s.buffer with
    | none =>
      exact ⟨h, hn, fun _ => lookup_none_iff.1 hl, rfl, rfl, rfl, rfl⟩
    | some c =>
      simp only
      have hmem := lookup_eq_some hl
      have hlen : (s.buffer.filter (fun x => x.1 ≠ s.nextInOrder)).length < s.buffer.length := by
        have h1 := List.length_filter_le (fun x : Nat × Bytes => x.1 ≠ s.nextInOrder) s.buffer
        rcases Nat.lt_or_eq_of_le h1 with h2 | h2
        · exact h2
        · exfalso
          have h3 := List.length_filter_eq_length_iff.1 h2 _ hmem
          simp at h3
      generalize ht : ({ s with log := s.log ++ [Obs.inOrder c], buffer := s.buffer.filter (fun x => x.1 ≠ s.nextInOrder), nextInOrder := s.nextInOrder + 1 } : St) = t
      have hti : Inv t := by
        subst ht
        obtain ⟨a, b, c', d, e, f, g, i, j, kk, l, m, n⟩ := h
        constructor <;> try assumption
        · intro hlg
          simp only [List.length_append, List.length_singleton] at hlg
          refine ok_snoc.2 ⟨a (by omega), hn, ?_⟩
          simp only
          rw [l]
          exact j _ _ hmem
        · intro e; exact absurd e hr
        · intro hr' p hp
          have := g hr' p hp
          refine ⟨?_, this.2⟩
          rw [hasKey_filter, this.1]; simp
        · intro v hv
          obtain ⟨x1, x2⟩ := i v hv
          exact ⟨List.mem_append_left _ x1, x2⟩
        · intro k c hk
          exact hasSeg_mono (j k c ((List.mem_filter.1 hk).1))
        · intro k hk
          show hasKey k (s.buffer.filter (fun x => x.1 ≠ s.nextInOrder)) = true ∨ (s.cfg.inOrder = true ∧ k < s.nextInOrder + 1)
          rw [hasKey_filter]
          rcases kk k hk with h1 | h1
          · by_cases hke : k = s.nextInOrder
            · right; exact ⟨hi, by omega⟩
            · left; simp [hke, h1]
          · right; exact ⟨hi, by omega⟩
        · simp only
          rw [delivered_snoc_inOrder, List.length_append, l]; rfl
        · simp only [List.length_append]; omega
      obtain ⟨i1, i2, i3, i4, i5, i6, i7⟩ := ih t hti (by subst ht; exact hi) (by subst ht; exact hr)
        (by subst ht; exact noTerm_snoc hn rfl) (by subst ht; simp only; omega)
      refine ⟨i1, i2, i3, ?_, ?_, ?_, ?_⟩
      · rw [i4]; subst ht; exact lastFinal_snoc_none rfl
      · rw [i5]; subst ht; rfl
      · rw [i6]; subst ht; rfl
      · rw [i7]; subst ht; rfl

theorem learn_inv {s : St} {d : Data} {cur : Nat} (h : Inv s) (hr : s.received ≠ []) : Inv (learn s d cur) := by
  unfold learn
  split
  · obtain ⟨a, b, c, d, e, f, g, i, j, kk, l, m, n⟩ := h
    constructor <;> try assumption
    · intro e; exact absurd e hr
    · intro hr' p hp
      have := g hr' p hp
      refine ⟨this.1, ?_⟩
      have h2 : p.1 < s.next := this.2
      show p.1 < (if cur = 0 then s.next + 1 else s.next)
      split <;> omega
  · exact h

theorem learn_fields (s : St) (d : Data) (cur : Nat) :
    (learn s d cur).log = s.log ∧ (learn s d cur).received = s.received ∧ (learn s d cur).nSeg = s.nSeg ∧
    (learn s d cur).cfg = s.cfg ∧ (learn s d cur).nextInOrder = s.nextInOrder ∧ (learn s d cur).buffer = s.buffer := by
  unfold learn; split <;> simp

/-- From the signal of a validated segment on. -/
theorem afterStored_good {s : St} {d : Data} {cur w : Nat} (log0 : List Obs) (h : Inv s)
    (hlog : s.log = log0 ++ [.validated d])
    (hfin : FinalOk { s with log := log0 }) (hd : ∀ f, d.final = some (some f) → f < 2 ^ 64)
    (hn : NoTerm s.log) (hr : s.received ≠ []) (ha : s.cfg.inOrder = true → s.nextInOrder ≠ cur → hasKey s.nextInOrder s.buffer = false) :
    Good (afterStored s d cur w) := by
  unfold afterStored
  split
  · rename_i hnone
    refine error_good h (hfin.congr ?_ rfl) hn
    rw [hlog]
    exact lastFinal_snoc_none (by simp [finalOf, hnone])
  · have c := takeFinal_fields s d
    have g1 := takeFinal_inv (d := d) h
    have hf1 : FinalOk (takeFinal s d) := by
      obtain ⟨x1, x2⟩ := hfin
      simp only at x1 x2
      have hns := c.2.2.2.2.2.2.2.2.2.2.2.2.2.2.1
      constructor
      · rw [c.1, hlog]
        intro f hf
        cases hdf : d.final.join with
        | none => rw [lastFinal_snoc_none (by simp [finalOf, hdf])] at hf; exact x1 f hf
        | some f' =>
          rw [lastFinal_snoc_some (f := f') (by simp [finalOf, hdf])] at hf
          have : f' = f := by simpa using hf
          subst this
          exact hd f' (by simpa [Option.join_eq_some_iff] using hdf)
      · rw [c.1, hlog, hns]
        cases hdf : d.final with
        | none =>
          simp only
          rw [lastFinal_snoc_none (by simp [finalOf, hdf])]; exact x2
        | some o =>
          cases o with
          | none =>
            simp only
            rw [lastFinal_snoc_none (by simp [finalOf, hdf])]; exact x2
          | some f =>
            simp only
            rw [lastFinal_snoc_some (f := f) (by simp [finalOf, hdf])]
    generalize takeFinal s d = s1 at *
    obtain ⟨c1, c2, c3, c4, c5, c6, c7, c8, c9, c10, c11, c12, c13, c14, c15⟩ := c
    have g2 : Inv (deliverFrom s1 cur) ∧ NoTerm (deliverFrom s1 cur).log ∧ Ahead (deliverFrom s1 cur) ∧
        lastFinal (deliverFrom s1 cur).log = lastFinal s1.log ∧ (deliverFrom s1 cur).nSeg = s1.nSeg ∧
        (deliverFrom s1 cur).received = s1.received := by
      unfold deliverFrom
      split
      · rename_i hc
        rw [Bool.and_eq_true] at hc
        obtain ⟨i1, i2, i3, i4, i5, i6, i7⟩ := deliver_spec s1.buffer.length s1 g1 hc.1 (by rw [c4]; exact hr) (by rw [c1]; exact hn) (Nat.le_refl _)
        exact ⟨i1, i2, i3, i4, i5, i6⟩
      · rename_i hc
        refine ⟨g1, by rw [c1]; exact hn, ?_, rfl, rfl, rfl⟩
        intro hi
        rw [c8, c5]
        rw [c9] at hi
        apply ha hi
        intro e
        apply hc
        rw [c9, c8, hi, e]; simp
    generalize deliverFrom s1 cur = s2 at *
    obtain ⟨i1, i2, i3, i4, i5, i6⟩ := g2
    have l := learn_fields s2 d cur
    have hr2 : s2.received ≠ [] := by rw [i6, c4]; exact hr
    apply fetchWindow_good
    · exact learn_inv i1 hr2
    · exact hf1.congr (by rw [l.1, i4]) (by rw [l.2.2.1, i5])
    · rw [l.1]; exact i2
    · unfold Ahead; rw [l.2.2.2.1, l.2.2.2.2.1, l.2.2.2.2.2]; exact i3
    · rw [l.2.1]; exact hr2

theorem find_mem {l : List Pend} {q : Pend → Bool} {p : Pend} (h : l.find? q = some p) : p ∈ l ∧ q p = true :=
  ⟨List.mem_of_find?_eq_some h, List.find?_some h⟩

theorem mem_core {s : St} {p : Pend} (h : p ∈ s.pending) : (p.seg, p.node) ∈ core s := List.mem_map.2 ⟨p, h, rfl⟩

theorem eq_of_nodup_map {α : Type} {f : α → Nat} {l : List α} (h : (l.map f).Nodup) {a b : α} (ha : a ∈ l) (hb : b ∈ l)
    (he : f a = f b) : a = b := by
  induction l with
  | nil => simp at ha
  | cons x l ih =>
    rw [List.map_cons, List.nodup_cons] at h
    rcases List.mem_cons.1 ha with h1 | h1 <;> rcases List.mem_cons.1 hb with h2 | h2
    · rw [h1, h2]
    · exact absurd (List.mem_map.2 ⟨b, h2, by rw [← he, h1]⟩) h.1
    · exact absurd (List.mem_map.2 ⟨a, h1, by rw [he, h2]⟩) h.1
    · exact ih h.2 h1 h2

theorem core_filter (s : St) (n : Nat) : (s.pending.filter (fun q => q.node ≠ n)).map (fun p => (p.seg, p.node)) = (core s).filter (fun p => p.2 ≠ n) := by
  unfold core
  rw [List.filter_map]
  rfl

/-- The segment to be stored is not in the buffer. -/
theorem stored_fresh {s : St} {v : Val} {p : Pend} {cur : Nat} (h : Inv s) (hv : v ∈ s.validating ∨ (s.received ≠ [] → v.data.seg = some p.seg))
    (hp : p ∈ s.pending) (hpn : p.node = v.node) (hc : v.data.seg = some cur) : hasKey cur s.buffer = false := by
  by_cases hr : s.received = []
  · rw [(h.recNil hr).1]; rfl
  · have h1 : v.data.seg = some p.seg := by
      rcases hv with hv | hv
      · exact (h.valid v hv).2.2.2 hr _ (mem_core hp) hpn
      · exact hv hr
    rw [hc, Option.some.injEq] at h1
    rw [h1]
    exact (h.fresh hr _ (mem_core hp)).1

theorem signal_inv {s : St} {o : Obs} {b : Bool} (h : Inv { s with log := s.log ++ [o] }) : Inv (signal s o b) := by
  unfold signal
  split
  · exact stop_inv h
  · exact h

theorem stop_fields (s : St) :
    (stop s).log = s.log ∧ (stop s).nextId = s.nextId ∧ (stop s).validating = s.validating ∧ (stop s).received = s.received ∧
    (stop s).buffer = s.buffer ∧ (stop s).next = s.next ∧ (stop s).retx = s.retx ∧ (stop s).nextInOrder = s.nextInOrder ∧
    (stop s).cfg = s.cfg ∧ (stop s).nSeg = s.nSeg ∧ (stop s).versioned = s.versioned ∧ (stop s).nReceived = s.nReceived ∧
    (stop s).inFlight = s.inFlight ∧ (stop s).now = s.now ∧ (stop s).lastRecv = s.lastRecv ∧ (stop s).ub = s.ub := by
  unfold stop; split <;> simp

theorem signal_fields (s : St) (o : Obs) (b : Bool) :
    (signal s o b).log = s.log ++ [o] ∧ (signal s o b).nextId = s.nextId ∧ (signal s o b).validating = s.validating ∧
    (signal s o b).received = s.received ∧
    (signal s o b).buffer = s.buffer ∧ (signal s o b).next = s.next ∧ (signal s o b).retx = s.retx ∧
    (signal s o b).nextInOrder = s.nextInOrder ∧
    (signal s o b).cfg = s.cfg ∧ (signal s o b).nSeg = s.nSeg ∧ (signal s o b).versioned = s.versioned ∧
    (signal s o b).nReceived = s.nReceived ∧
    (signal s o b).inFlight = s.inFlight ∧ (signal s o b).now = s.now ∧ (signal s o b).lastRecv = s.lastRecv ∧
    (signal s o b).ub = s.ub := by
  unfold signal
  split
  · have := stop_fields { s with log := s.log ++ [o] }
    simpa using this
  · simp

theorem signal_good {s : St} {o : Obs} {b : Bool} (h : Inv s) (hf : FinalOk s) (hn : NoTerm s.log) (ha : Allowed s.log o)
    (hd : delivered (s.log ++ [o]) = delivered s.log) (hfo : finalOf o = none) (ht : terminal o = false) :
    Inv (signal s o b) ∧ FinalOk (signal s o b) ∧ NoTerm (signal s o b).log := by
  have f := signal_fields s o b
  refine ⟨signal_inv (h.log ha hd), hf.congr ?_ f.2.2.2.2.2.2.2.2.2.1, ?_⟩
  · rw [f.1]; exact lastFinal_snoc_none hfo
  · rw [f.1]; exact noTerm_snoc hn ht

theorem store_fields (s : St) (p : Pend) (c : Bytes) (cur : Nat) (hb : hasKey cur s.buffer = false) :
    (store s p c cur).log = s.log ∧ (store s p c cur).nextId = s.nextId ∧ (store s p c cur).validating = s.validating ∧
    (store s p c cur).received = (if cur ∈ s.received then s.received else s.received ++ [cur]) ∧
    (store s p c cur).buffer = s.buffer ++ [(cur, c)] ∧ (store s p c cur).next = s.next ∧ (store s p c cur).retx = s.retx ∧
    (store s p c cur).nextInOrder = s.nextInOrder ∧
    (store s p c cur).cfg = s.cfg ∧ (store s p c cur).nSeg = s.nSeg ∧ (store s p c cur).versioned = s.versioned ∧
    (store s p c cur).nReceived = s.nReceived + 1 ∧
    (store s p c cur).inFlight = s.inFlight ∧ (store s p c cur).now = s.now ∧ (store s p c cur).lastRecv = s.now ∧
    (store s p c cur).ub = s.ub ∧ (store s p c cur).stopped = s.stopped ∧
    (store s p c cur).pending = s.pending.filter (fun q => q.node ≠ p.node) ∧ (store s p c cur).live = (cancel s [p.iid]).live := by
  unfold store copyTo
  have : lookup cur s.buffer = none := lookup_none_iff.2 hb
  simp [this]

theorem store_inv {s : St} {d : Data} {p : Pend} {cur : Nat} (h : Inv s) (hn : NoTerm s.log) (hp : p ∈ s.pending)
    (hcur : s.received ≠ [] → cur = p.seg) (hd : d.seg = some cur) (hrec : Obs.received d ∈ s.log) (hb : hasKey cur s.buffer = false) :
    Inv { store s p d.content cur with log := s.log ++ [.validated d] } ∧ (store s p d.content cur).received ≠ [] := by
  have f := store_fields s p d.content cur hb
  obtain ⟨f1, f2, f3, f4, f5, f6, f7, f8, f9, f10, f11, f12, f13, f14, f15, f16, f17, f18, f19⟩ := f
  have hr' : (store s p d.content cur).received ≠ [] := by
    rw [f4]
    split
    · rename_i hm; intro e; rw [e] at hm; simp at hm
    · simp
  refine ⟨?_, hr'⟩
  have hc : core ({ store s p d.content cur with log := s.log ++ [.validated d] } : St) = (core s).filter (fun q => q.2 ≠ p.node) := by
    rw [← core_filter, ← f18]; rfl
  have hnil : s.received = [] → (core s).filter (fun q => q.2 ≠ p.node) = [] := by
    intro hr
    rw [List.filter_eq_nil_iff]
    intro q hq
    have h1 := (h.recNil hr).2.1 q hq
    have h2 := (h.recNil hr).2.1 _ (mem_core hp)
    have := eq_of_nodup_map h.segNodup hq (mem_core hp) (by rw [h1, h2])
    simp [this]
  obtain ⟨a, b, c, dd, e, f', g, i, j, kk, l, m, n⟩ := h
  have hsub : ((core s).filter (fun q => q.2 ≠ p.node)).Sublist (core s) := List.filter_sublist
  refine ⟨?_, ?_, ?_, ?_, ?_, ?_, ?_, ?_, ?_, ?_, ?_, ?_, ?_⟩
  · intro hl
    simp only [List.length_append, List.length_singleton] at hl
    exact ok_snoc.2 ⟨a (by omega), hn, hrec⟩
  · rw [hc]; exact (hsub.map _).nodup b
  · rw [hc]; exact (hsub.map _).nodup c
  · rw [hc]; intro q hq; simp only [f2]; exact dd q (hsub.subset hq)
  · simp only [f2, f3]; exact e
  · intro hr; exact absurd hr hr'
  · intro _ q hq
    rw [hc] at hq
    by_cases hr : s.received = []
    · rw [hnil hr] at hq; simp at hq
    · have h1 := g hr q (hsub.subset hq)
      simp only [f5, f6]
      refine ⟨?_, h1.2⟩
      rw [hasKey_append, h1.1]
      have : q.1 ≠ cur := by
        rw [hcur hr]
        intro he
        have := eq_of_nodup_map b (hsub.subset hq) (mem_core hp) he
        rw [List.mem_filter] at hq
        rw [this] at hq
        simp at hq
      simp [hasKey]
      omega
  · intro v hv
    simp only [f3] at hv
    obtain ⟨x1, x2, x3, x4⟩ := i v hv
    refine ⟨List.mem_append_left _ x1, x2, x3, ?_⟩
    intro _ q hq hqn
    rw [hc] at hq
    by_cases hr : s.received = []
    · rw [hnil hr] at hq; simp at hq
    · exact x4 hr q (hsub.subset hq) hqn
  · intro k c hk
    simp only [f5] at hk
    rcases List.mem_append.1 hk with hk | hk
    · exact hasSeg_mono (j k c hk)
    · simp only [List.mem_singleton, Prod.mk.injEq] at hk
      exact ⟨d, by simp, by rw [hk.1]; exact hd, hk.2.symm⟩
  · intro k hk
    simp only [f4] at hk
    simp only [f5, f8, f9]
    rw [hasKey_append]
    have : k ∈ s.received ∨ k = cur := by
      split at hk
      · exact Or.inl hk
      · simpa using hk
    rcases this with h1 | h1
    · rcases kk k h1 with h2 | h2
      · left; rw [h2]; rfl
      · right; exact h2
    · left; rw [h1]; simp [hasKey]
  · simp only [f8]
    rw [← l]
    simp [delivered, List.filterMap_append]
  · simp only [f4, List.length_append, List.length_singleton]
    split <;> (try simp only [List.length_append, List.length_singleton]) <;> omega
  · simp only [f4]
    split
    · exact n
    · rename_i hm
      rw [List.nodup_append]
      refine ⟨n, by simp, ?_⟩
      intro x hx y hy
      rw [List.mem_singleton] at hy
      intro e; rw [e, hy] at hx; exact hm hx

theorem success_good {s : St} {v : Val} {w : Nat} {b : Bool} (h : Inv s) (hf : FinalOk s) (ht : Term s) (ha : s.stopped = true ∨ Ahead s)
    (hrec : Obs.received v.data ∈ s.log) (hseg : ∃ k, v.data.seg = some k) (hfin : ∀ f, v.data.final = some (some f) → f < 2 ^ 64)
    (hpend : s.received ≠ [] → ∀ p ∈ core s, p.2 = v.node → v.data.seg = some p.1) : Good (success s v w b) := by
  unfold success
  split
  · rename_i hs
    exact ⟨h, hf, ht, ha⟩
  · rename_i hs
    have hs' : s.stopped = false := by simpa using hs
    have hn : NoTerm s.log := by
      rcases ht with ht | ht
      · exact ht
      · rw [hs'] at ht; simp at ht
    have ha' : Ahead s := by
      rcases ha with ha | ha
      · rw [hs'] at ha; simp at ha
      · exact ha
    cases hfd : s.pending.find? (fun p => p.node = v.node) with
    | none =>
      refine ⟨h.congr rfl rfl rfl rfl rfl rfl rfl rfl rfl rfl, hf.congr rfl rfl, Or.inl hn, Or.inr ha'⟩
    | some p =>
      simp only
      obtain ⟨hp, hpn⟩ := find_mem hfd
      simp only [decide_eq_true_eq] at hpn
      obtain ⟨cur, hcur⟩ := hseg
      have hc0 : v.data.seg.getD 0 = cur := by rw [hcur]; rfl
      rw [hc0]
      have hce : s.received ≠ [] → cur = p.seg := by
        intro hr
        have := hpend hr _ (mem_core hp) hpn
        rw [hcur, Option.some.injEq] at this
        exact this
      have hb : hasKey cur s.buffer = false :=
        stored_fresh h (v := v) (p := p) (Or.inr (fun hr => by rw [hcur, hce hr])) hp hpn hcur
      obtain ⟨i1, i2⟩ := store_inv h hn hp hce hcur hrec hb
      have f := store_fields s p v.data.content cur hb
      have g := signal_fields (store s p v.data.content cur) (.validated v.data) b
      have f1 := f.1
      have f4 := f.2.2.2.2.1
      apply afterStored_good s.log
      · apply signal_inv; rw [f1]; exact i1
      · rw [g.1, f1]
      · exact hf.congr rfl (by show (signal _ _ _).nSeg = _; rw [g.2.2.2.2.2.2.2.2.2.1, f.2.2.2.2.2.2.2.2.2.1])
      · exact hfin
      · rw [g.1, f1]; exact noTerm_snoc hn rfl
      · rw [g.2.2.2.1]; exact i2
      · rw [g.2.2.2.2.2.2.2.2.1, g.2.2.2.2.2.2.2.1, g.2.2.2.2.1, f.2.2.2.2.2.2.2.2.1, f.2.2.2.2.2.2.2.1, f4]
        intro hi hne
        rw [hasKey_append, ha' hi]
        simp [hasKey]
        omega

theorem term_noTerm {s : St} (ht : Term s) (hs : s.stopped = false) : NoTerm s.log := by
  rcases ht with ht | ht
  · exact ht
  · rw [hs] at ht; simp at ht

theorem result_good {s : St} {vid w : Nat} {ok b : Bool} (h : Good s) : Good (result s vid ok w b) := by
  obtain ⟨h, hf, ht, ha⟩ := h
  unfold result
  cases hfd : s.validating.find? (fun v => v.vid = vid) with
  | none => exact ⟨h, hf, ht, ha⟩
  | some v =>
    simp only
    have hv : v ∈ s.validating := List.mem_of_find?_eq_some hfd
    obtain ⟨x1, x2, x3, x4⟩ := h.valid v hv
    have h' : Inv { s with validating := s.validating.filter (fun x => x.vid ≠ vid) } := by
      apply h.sublist <;> first | rfl | exact List.Sublist.refl _ | exact List.filter_sublist
    split
    · exact success_good h' (hf.congr rfl rfl) ht ha x1 x2 x3 x4
    · split
      · exact ⟨h', hf.congr rfl rfl, ht, ha⟩
      · rename_i hs
        exact error_good h' (hf.congr rfl rfl) (term_noTerm ht (by simpa using hs))

theorem unschedule_core (s : St) (n : Nat) : core (unschedule s n) = core s := by
  apply core_map s (fun q => if q.node = n then { q with timer := false } else q)
  · intro p; split <;> simp
  · rfl

theorem unschedule_inv {s : St} {n : Nat} (h : Inv s) : Inv (unschedule s n) :=
  h.congr rfl (unschedule_core s n) rfl rfl rfl rfl rfl rfl rfl rfl

theorem first_mem {l : List Pend} {p : Pend} (h : first l = some p) : p ∈ l := List.mem_of_find?_eq_some h

theorem dataTarget_mem {s : St} {k : Nat} {p : Pend} (h : dataTarget s k = some p) :
    p ∈ s.pending ∧ (s.received ≠ [] → p.seg = k) := by
  unfold dataTarget at h
  split at h
  · rename_i hr
    exact ⟨first_mem h, fun h' => absurd hr h'⟩
  · obtain ⟨h1, h2⟩ := find_mem h
    exact ⟨h1, fun _ => by simpa using h2⟩

theorem validate_good {s : St} {p : Pend} {d : Data} {verdict : Option Bool} {w : Nat} {b c : Bool} {k : Nat} (h : Inv s) (hf : FinalOk s)
    (hs : s.stopped = false) (hn : NoTerm s.log) (ha : Ahead s) (hp : p ∈ s.pending) (hk : d.seg = some k) (hpk : s.received ≠ [] → p.seg = k)
    (hfin : ∀ f, d.final = some (some f) → f < 2 ^ 64) : Good (validate s p d verdict w b c) := by
  unfold validate
  simp only
  obtain ⟨g1, g2, g3⟩ := signal_good (o := .received d) (b := b) (unschedule_inv (n := p.node) h) (hf.congr rfl rfl) hn ⟨hn, trivial⟩
    (by simp [delivered, List.filterMap_append]) rfl rfl
  have f := signal_fields (unschedule s p.node) (.received d) b
  have hsub : (core (signal (unschedule s p.node) (.received d) b)).Sublist (core s) := by
    unfold signal
    split
    · unfold stop
      rw [if_neg (by show ¬ s.stopped = true; rw [hs]; simp)]
      simp [core]
    · rw [show core { unschedule s p.node with log := (unschedule s p.node).log ++ [.received d] } = core (unschedule s p.node) from rfl,
        unschedule_core]
      exact List.Sublist.refl _
  generalize signal (unschedule s p.node) (.received d) b = s1 at *
  obtain ⟨f1, f2, f3, f4, f5, f6, f7, f8, f9, _⟩ := f
  have hgood : Good { s1 with validating := s1.validating ++ [⟨s1.nextId, p.node, d⟩], nextId := s1.nextId + 1 } := by
    refine ⟨?_, g2.congr rfl rfl, Or.inl g3, Or.inr ?_⟩
    · obtain ⟨a, b', c', dd, e, f', g, i, j, kk, l, m, n⟩ := g1
      refine ⟨a, b', c', ?_, ?_, f', g, ?_, j, kk, l, m, n⟩
      · intro q hq; have := dd q hq; show q.2 < s1.nextId + 1; omega
      · intro v hv
        show v.node < s1.nextId + 1
        rcases List.mem_append.1 hv with hv | hv
        · have := e v hv; omega
        · rw [List.mem_singleton.1 hv]
          have := h.nodeLt _ (mem_core hp)
          rw [f2]
          show p.node < s.nextId + 1
          simp only at this
          omega
      · intro v hv
        rcases List.mem_append.1 hv with hv | hv
        · exact i v hv
        · rw [List.mem_singleton.1 hv]
          refine ⟨?_, ⟨k, hk⟩, hfin, ?_⟩
          · show _ ∈ s1.log; rw [f1]; simp
          · intro hr q hq hqn
            have hr' : s.received ≠ [] := by
              have : s1.received = s.received := f4
              rw [← this]; exact hr
            have hq' : q ∈ core s := hsub.subset hq
            have := eq_of_nodup_map h.nodeNodup hq' (mem_core hp) hqn
            rw [this]
            simp only
            rw [hpk hr']; exact hk
    · intro hi
      show hasKey s1.nextInOrder s1.buffer = false
      rw [f8, f5]
      have : s1.cfg = s.cfg := f9
      exact ha (by rw [← this]; exact hi)
  cases verdict with
  | none => exact hgood
  | some ok => exact result_good hgood

theorem ahead_of {s : St} (ha : s.stopped = true ∨ Ahead s) (hs : s.stopped = false) : Ahead s := by
  rcases ha with ha | ha
  · rw [hs] at ha; simp at ha
  · exact ha

theorem onData_good {s : St} {iid : Nat} {d : Data} {verdict : Option Bool} {w : Nat} {b c : Bool} (h : Good s)
    (hfin : ∀ f, d.final = some (some f) → f < 2 ^ 64) : Good (onData s iid d verdict w b c) := by
  obtain ⟨h, hf, ht, ha⟩ := h
  unfold onData
  split
  · exact ⟨h, hf, ht, ha⟩
  · split
    · simp only
      have h' : Inv { s with live := s.live.filter (fun x => x.iid ≠ iid) } := h.congr rfl rfl rfl rfl rfl rfl rfl rfl rfl rfl
      split
      · exact ⟨h', hf.congr rfl rfl, ht, ha⟩
      · rename_i hs
        have hs' : s.stopped = false := by simpa using hs
        have hn := term_noTerm ht hs'
        have ha' := ahead_of ha hs'
        have h2 : Inv { s with live := s.live.filter (fun x => x.iid ≠ iid), inFlight := s.inFlight - 1 } := h.congr rfl rfl rfl rfl rfl rfl rfl rfl rfl rfl
        split
        · exact error_good h2 (hf.congr rfl rfl) hn
        · rename_i k hk
          split
          · exact ⟨h2, hf.congr rfl rfl, ht, ha⟩
          · rename_i p hp
            obtain ⟨p1, p2⟩ := dataTarget_mem hp
            exact validate_good h2 (hf.congr rfl rfl) hs' hn ha' p1 hk p2 hfin
    · exact ⟨h, hf, ht, ha⟩

theorem lossTarget_mem {s : St} {k : Kind} {p : Pend} (h : lossTarget s k = some p) : p ∈ s.pending := by
  unfold lossTarget at h
  split at h
  · exact (find_mem h).1
  · exact first_mem h

theorem afterLoss_good {s : St} {k : Kind} {w : Nat} (h : Inv s) (hf : FinalOk s) (hn : NoTerm s.log) (ha : Ahead s) :
    Good (afterLoss s k w) := by
  unfold afterLoss
  split
  · exact error_good h hf hn
  · split
    · exact ⟨h.congr rfl rfl rfl rfl rfl rfl rfl rfl rfl rfl, hf.congr rfl rfl, Or.inl hn, Or.inr ha⟩
    · rename_i p hp
      simp only
      have h' := unschedule_inv (n := p.node) h
      split
      · rename_i hr
        have f := send_fields (unschedule s p.node) 0 .base true
        refine ⟨send_inv h' (fun _ => rfl) (by simp), hf.congr (by rw [f.1]; rfl) (by rw [f.2.2.2.2.2.2.2.2.2.1]; rfl), Or.inl (by rw [f.1]; exact hn), Or.inr ?_⟩
        unfold Ahead
        rw [f.2.2.2.2.2.2.2.1, f.2.2.2.2.2.2.1, f.2.2.2.1]
        exact ha
      · rename_i hr
        apply fetchWindow_good
        · exact h'.window hr rfl rfl rfl rfl rfl rfl (Nat.le_refl _) rfl rfl
        · exact hf.congr rfl rfl
        · exact hn
        · exact ha
        · exact hr

theorem signal_ahead {s : St} {o : Obs} {b : Bool} (ha : Ahead s) : Ahead (signal s o b) := by
  have f := signal_fields s o b
  unfold Ahead
  rw [f.2.2.2.2.2.2.2.2.1, f.2.2.2.2.2.2.2.1, f.2.2.2.2.1]
  exact ha

theorem onNack_good {s : St} {iid : Nat} {g : Bool} {w : Nat} {b : Bool} (h : Good s) : Good (onNack s iid g w b) := by
  obtain ⟨h, hf, ht, ha⟩ := h
  unfold onNack
  split
  · exact ⟨h, hf, ht, ha⟩
  · simp only
    have h' : Inv { s with live := s.live.filter (fun x => x.iid ≠ iid) } := h.congr rfl rfl rfl rfl rfl rfl rfl rfl rfl rfl
    split
    · exact ⟨h', hf.congr rfl rfl, ht, ha⟩
    · rename_i hs
      have hs' : s.stopped = false := by simpa using hs
      have hn := term_noTerm ht hs'
      have ha' := ahead_of ha hs'
      obtain ⟨g1, g2, g3⟩ := signal_good (o := .nacked) (b := b) h' (hf.congr rfl rfl) hn ⟨hn, trivial⟩
        (by simp [delivered, List.filterMap_append]) rfl rfl
      have ga := signal_ahead (s := { s with live := s.live.filter (fun x => x.iid ≠ iid) }) (o := .nacked) (b := b) ha'
      split
      · apply afterLoss_good
        · exact g1.congr rfl rfl rfl rfl rfl rfl rfl rfl rfl rfl
        · exact g2.congr rfl rfl
        · exact g3
        · exact ga
      · apply error_good
        · exact g1.congr rfl rfl rfl rfl rfl rfl rfl rfl rfl rfl
        · exact g2.congr rfl rfl
        · exact g3

theorem onTimeout_good {s : St} {n w : Nat} {b : Bool} (h : Good s) : Good (onTimeout s n w b) := by
  obtain ⟨h, hf, ht, ha⟩ := h
  unfold onTimeout
  split
  · exact ⟨h, hf, ht, ha⟩
  · rename_i p hp
    simp only
    have h' := unschedule_inv (n := p.node) h
    split
    · exact ⟨h', hf.congr rfl rfl, ht, ha⟩
    · rename_i hs
      have hs' : s.stopped = false := by simpa [unschedule] using hs
      have hn := term_noTerm ht hs'
      have ha' := ahead_of ha hs'
      obtain ⟨g1, g2, g3⟩ := signal_good (o := .timedOut) (b := b) h' (hf.congr rfl rfl) hn ⟨hn, trivial⟩
        (by simp [delivered, List.filterMap_append]) rfl rfl
      have ga := signal_ahead (s := unschedule s p.node) (o := .timedOut) (b := b) ha'
      apply afterLoss_good
      · exact g1.congr rfl rfl rfl rfl rfl rfl rfl rfl rfl rfl
      · exact g2.congr rfl rfl
      · exact g3
      · exact ga

theorem stop_good {s : St} (h : Good s) : Good (stop s) := by
  obtain ⟨h, hf, ht, ha⟩ := h
  exact ⟨stop_inv h, stop_finalOk hf, Or.inr (stop_stopped s), Or.inl (stop_stopped s)⟩

theorem start_good (cfg : Cfg) : Good (start cfg) := by
  have : start cfg = ⟨cfg, false, 1, 0, 0, 0, 0, [], 0, [], [⟨0, 0, 0, .base, true⟩], [], [⟨0, .base⟩], [], 1, 0, 0, [], false⟩ := rfl
  rw [this]
  refine ⟨?_, ?_, Or.inl ?_, Or.inr ?_⟩
  · constructor <;> simp [core, delivered, Ok]
  · constructor <;> simp [lastFinal]
  · intro x hx; simp at hx
  · intro _; rfl

theorem step_good {s : St} {e : Ev} (h : Good s) (he : ValidEvs [e]) : Good (step s e) := by
  cases e with
  | data i d v w a b => exact onData_good h (he i d v w a b (by simp)).2
  | result v ok w a => exact result_good h
  | nack i g w a => exact onNack_good h
  | timeout n w a => exact onTimeout_good h
  | lost i =>
    obtain ⟨h, hf, ht, ha⟩ := h
    exact ⟨h.congr rfl rfl rfl rfl rfl rfl rfl rfl rfl rfl, hf.congr rfl rfl, ht, ha⟩
  | stop => exact stop_good h
  | advance dt =>
    obtain ⟨h, hf, ht, ha⟩ := h
    exact ⟨h.congr rfl rfl rfl rfl rfl rfl rfl rfl rfl rfl, hf.congr rfl rfl, ht, ha⟩

theorem run_good {s : St} {evs : List Ev} (h : Good s) (he : ValidEvs evs) : Good (run s evs) := by
  induction evs generalizing s with
  | nil => exact h
  | cons e evs ih =>
    apply ih
    · apply step_good h
      intro i d v w a b hm
      rw [List.mem_singleton] at hm
      exact he i d v w a b (by simp [hm])
    · intro i d v w a b hm
      exact he i d v w a b (by simp [hm])

end Ndn.Fetch
