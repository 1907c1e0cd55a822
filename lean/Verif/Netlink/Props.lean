import Verif.Netlink.Lemmas2
/-
Properties C120 to C123: what the network monitor makes of netlink messages.
-/
namespace Ndn.Netlink
open Spec

/-! ### C120: datagrams and attributes -/

/-- C120, claimed: whatever is received, the messages handled are those in the datagram, whatever else is in the buffer. -/
def C120_messages_claim : Prop := ∀ data stale : Bytes, data.length < 2 ^ 64 →
  ∃ ms, scan ((data ++ stale).length + 1) (data ++ stale) 0 data.length = (ms, .done) ∧ Messages data ms

/-- A message of 18 octets at the end of a datagram: the remaining length, 18 − 20, becomes 2^64 − 2 (getNext, netlink-message.hpp 118-126),
so that the loop goes on with what an earlier, longer datagram left in the buffer, and is ready to go beyond the buffer. Here a link is
taken from such left-over octets. -/
theorem C120_messages_counterexample : ¬ C120_messages_claim := by
  intro h
  obtain ⟨ms, h1, h2⟩ := h ([18, 0, 0, 0, 3, 0, 2, 0, 0, 0, 0, 0, 0, 0, 0, 0, 0, 0])
    ([0, 0] ++ [16, 0, 0, 0, 16, 0, 2, 0, 0, 0, 0, 0, 0, 0, 0, 0]) (by decide)
  have e : (scan (([18, 0, 0, 0, 3, 0, 2, 0, 0, 0, 0, 0, 0, 0, 0, 0, 0, 0] ++ ([0, 0] ++ [16, 0, 0, 0, 16, 0, 2, 0, 0, 0, 0, 0, 0, 0, 0, 0]) : Bytes).length + 1)
    ([18, 0, 0, 0, 3, 0, 2, 0, 0, 0, 0, 0, 0, 0, 0, 0, 0, 0] ++ ([0, 0] ++ [16, 0, 0, 0, 16, 0, 2, 0, 0, 0, 0, 0, 0, 0, 0, 0])) 0 18).1.length = 2 := by
    decide +kernel
  have g : Messages [18, 0, 0, 0, 3, 0, 2, 0, 0, 0, 0, 0, 0, 0, 0, 0, 0, 0] [[18, 0, 0, 0, 3, 0, 2, 0, 0, 0, 0, 0, 0, 0, 0, 0, 0, 0]] :=
    .last [18, 0, 0, 0, 3, 0, 2, 0, 0, 0, 0, 0, 0, 0, 0, 0, 0, 0] [] (by decide) (by decide) (by decide)
      (by intro k hk; simp only [List.length_nil, Nat.le_zero] at hk; subst hk; decide)
  rw [messages_unique h2 g] at h1
  have h1' : scan _ _ 0 18 = _ := h1
  rw [h1'] at e
  exact absurd e (by decide)

/-- C120: if the number of octets received is a multiple of four, as it is if every message is padded, exactly the messages in the
datagram are handled, whatever else is in the buffer. -/
theorem C120_messages_partial (data stale : Bytes) (h4 : data.length % 4 = 0) (hb : data.length < 2 ^ 64) :
    ∃ ms, scan ((data ++ stale).length + 1) (data ++ stale) 0 data.length = (ms, .done) ∧ Messages data ms := by
  obtain ⟨ms, h1, h2⟩ := scan_padded ((data ++ stale).length + 1) [] data stale h4 hb (by rw [List.length_append]; omega)
  exact ⟨ms, h1, h2⟩

/-- There is only one way to split a datagram. -/
theorem C120_messages_unique {b : Bytes} {ms ms' : List Bytes} (h : Messages b ms) (h' : Messages b ms') : ms = ms' := messages_unique h h'

/-- C120: the attributes of a message are those there are in what follows its fixed part of `n` octets. -/
theorem C120_attributes (m : Bytes) (n : Nat) (h : n % 4 = 0) (as : List (Nat × Bytes)) :
    msgAttrs m n = as ↔ Attributes (m.drop (16 + n)) as := by
  have e : align4 n = n := by unfold align4; omega
  constructor
  · rintro rfl
    have := attrs_spec ((m.drop (16 + n)).length + 1) (m.drop (16 + n)) (by omega)
    unfold msgAttrs
    rw [e]
    exact this
  · intro ha
    exact msgAttrs_eq n (by rw [e]; exact ha)

/-- C120: of several attributes of a type the last one counts. -/
theorem C120_value (as : List (Nat × Bytes)) (t : Nat) (v : Bytes) : attr as t = some v ↔ Value as t v := attr_iff as t v

theorem mem_takeWhile_pos {p : UInt8 → Bool} {l : Bytes} {x : UInt8} (h : x ∈ l.takeWhile p) : p x = true := by
  induction l with
  | nil => cases h
  | cons a l ih =>
    rw [List.takeWhile_cons] at h
    split at h
    · rcases List.mem_cons.mp h with rfl | h
      · assumption
      · exact ih h
    · cases h

/-- C120: a text is what precedes the first null octet, and there must be one. -/
theorem C120_text (v n : Bytes) : toStr v = some n ↔ (0 : UInt8) ∉ n ∧ ∃ rest, v = n ++ 0 :: rest := by
  unfold toStr
  constructor
  · intro h
    split at h
    · rename_i hc
      cases h
      refine ⟨fun hm => by have := mem_takeWhile_pos hm; simp at this, ?_⟩
      have e := List.takeWhile_append_dropWhile (p := fun x : UInt8 => decide (x ≠ 0)) (l := v)
      cases hd : v.dropWhile (fun x : UInt8 => decide (x ≠ 0)) with
      | nil =>
        rw [hd, List.append_nil] at e
        have h0 : (0 : UInt8) ∈ v := by simpa using hc
        rw [← e] at h0
        have := mem_takeWhile_pos h0
        simp at this
      | cons x l =>
        have hx : x = 0 := by
          have := List.head_dropWhile_not (fun x : UInt8 => decide (x ≠ 0)) (l := v) (by rw [hd]; simp)
          simp only [hd, List.head_cons] at this
          simpa using this
        exact ⟨l, by rw [hd, hx] at e; exact e.symm⟩
    · cases h
  · rintro ⟨h0, rest, rfl⟩
    rw [if_pos (by simp)]
    have : (n ++ 0 :: rest).takeWhile (fun x : UInt8 => decide (x ≠ 0)) = n := by
      rw [List.takeWhile_append_of_pos (fun x hx => by simpa using fun e : x = 0 => h0 (e ▸ hx))]
      simp
    rw [this]

/-! ### C121: requests, answers and notifications -/

/-- C121: the requests are sent and the end of the enumeration signalled once each, in this order; `onNetworkStateChanged` comes after
the end of the enumeration only. -/
theorem C121_order (seq0 pid : Nat) (buf : Bytes) (ds : List Dgram) :
    let log := ((Mon.init seq0 pid buf).run ds).log
    progress log <+: [.sent 18 ((seq0 + 1) % 2 ^ 32), .sent 22 ((seq0 + 2) % 2 ^ 32), .enumCompleted] ∧
    (∀ l1 l2, log = l1 ++ .networkChanged :: l2 → .enumCompleted ∈ l1) := by
  have h := stage_run seq0 pid buf ds
  refine ⟨?_, h.2⟩
  have h1 := h.1
  cases hp : ((Mon.init seq0 pid buf).run ds).phase with
  | links => simp only [hp] at h1; rw [h1.2]; exact ⟨_, rfl⟩
  | addrs => simp only [hp] at h1; rw [h1]; exact ⟨_, rfl⟩
  | complete => simp only [hp] at h1; rw [h1]; exact ⟨[], rfl⟩

/-- C121: nothing sent by another process, and no answer to another socket or to a request not made or already answered, has any effect
on what is listed or signalled. -/
theorem C121_foreign (M : Mon) (d : Dgram) (h4 : d.data.length % 4 = 0) (hb : d.data.length < 2 ^ 64)
    (h : d.sender ≠ 0 ∨ (d.group = 0 ∧ ∀ ms, Messages d.data ms → ∀ m ∈ ms, msgPid m ≠ M.pid ∨ msgSeq m ∉ M.pending)) :
    (M.recv d).1.ifs = M.ifs ∧ (M.recv d).1.log = M.log ∧ (M.recv d).1.phase = M.phase ∧ (M.recv d).1.pending = M.pending := by
  by_cases ht : d.trunc = true
  · unfold Mon.recv
    simp only [ht, if_true]
    exact ⟨trivial, trivial, trivial, trivial⟩
  · have ht : d.trunc = false := by simpa using ht
    by_cases hs : d.sender = 0
    · rcases h with h | ⟨hg, h⟩
      · exact absurd hs h
      · obtain ⟨ms, hms⟩ := messages_exists _ h4 hb
        rw [recv_padded M d ms h4 hb hms ht hs]
        have hh : ∀ (ms : List Bytes) (N : Mon), (∀ m ∈ ms, msgPid m ≠ N.pid ∨ msgSeq m ∉ N.pending) → N.handle 0 ms = (N, true) := by
          intro ms N
          induction ms with
          | nil => intro _; rfl
          | cons m ms ih =>
            intro hm
            have e : N.dispatch 0 m = some N := by
              unfold Mon.dispatch
              rcases hm m List.mem_cons_self with x | x
              · simp [x]
              · by_cases hp : msgPid m = N.pid
                · simp [hp, x]
                · simp [hp]
            simp only [Mon.handle, e]
            exact ih (fun x hx => hm x (List.mem_cons_of_mem _ hx))
        dsimp only
        rw [hg, hh ms { M with buf := d.data ++ M.buf.drop d.data.length } (h ms hms)]
        exact ⟨rfl, rfl, rfl, rfl⟩
    · unfold Mon.recv
      simp only [ht, Bool.false_eq_true, if_false, hs, ne_eq, not_false_eq_true, if_true]
      exact ⟨trivial, trivial, trivial, trivial⟩

/-- The effect of a notification: each of its messages is handled. -/
def Heard (M : Mon) (d : Dgram) (ms : List Bytes) : Prop :=
  M.waiting = true ∧ (M.recv d).1.ifs = (ms.foldl Mon.rtnl M).ifs ∧ (M.recv d).1.log = (ms.foldl Mon.rtnl M).log

/-- C121, claimed: notifications are always heard. -/
def C121_notified_claim : Prop := ∀ (seq0 pid : Nat) (buf : Bytes) (ds : List Dgram), seq0 < 2 ^ 32 →
  (∀ d ∈ ds, Undisturbed pid ((seq0 + 1) % 2 ^ 32) ((seq0 + 2) % 2 ^ 32) d) →
  ∀ d ms, d.trunc = false → d.data.length % 4 = 0 → d.data.length < 2 ^ 64 → d.sender = 0 → d.group ≠ 0 → Messages d.data ms →
    (∀ m ∈ ms, (msgFlags m).testBit 4 = false) → Heard ((Mon.init seq0 pid buf).run ds) d ms

/-- A message saying that the answer to request `s` (below 256) of socket 7 is complete, and the notification of a new link. -/
def doneFor (s : UInt8) : Bytes := [20, 0, 0, 0, 3, 0, 2, 0, s, 0, 0, 0, 7, 0, 0, 0, 0, 0, 0, 0]
def newLink : Bytes := [32, 0, 0, 0, 16, 0, 0, 0, 0, 0, 0, 0, 0, 0, 0, 0, 0, 0, 1, 0, 2, 0, 0, 0, 1, 0, 0, 0, 0, 0, 0, 0]

theorem single {m : Bytes} (h : 16 ≤ m.length) (hu : u32 m 0 = m.length) (h4 : m.length % 4 = 0) : Messages m [m] := by
  have := Messages.msg m [] [] [] h hu (by decide) (by simpa using h4) (.stop [] (fun h => by unfold StartsMsg at h; simp at h))
  simpa using this

/-- Sequence numbers start at the clock's time and wrap around to 0, the number under which the handler for notifications is kept: the
answer to request 0 goes to that handler and removes it (netlink-socket.cpp 195-208, 332-339); after the next answer the socket is
not read any more. -/
theorem C121_notified_counterexample : ¬ C121_notified_claim := by
  intro h
  have a0 := single (m := doneFor 0) (by decide) (by decide) (by decide)
  have a1 := single (m := doneFor 1) (by decide) (by decide) (by decide)
  have a2 := single (m := newLink) (by decide) (by decide) (by decide)
  have := h (2 ^ 32 - 1) 7 [] [⟨0, 0, false, doneFor 0⟩, ⟨0, 0, false, doneFor 1⟩] (by decide) (by
      intro d hd
      rcases List.mem_cons.mp hd with rfl | hd
      · refine ⟨rfl, rfl, by decide, fun ms hms m hm => ?_⟩
        rw [messages_unique hms a0] at hm
        rw [List.mem_singleton.mp hm]
        decide
      · rw [List.mem_singleton.mp hd]
        refine ⟨rfl, rfl, by decide, fun ms hms m hm => ?_⟩
        rw [messages_unique hms a1] at hm
        rw [List.mem_singleton.mp hm]
        decide)
    ⟨0, 1, false, newLink⟩ [newLink] rfl rfl (by decide) rfl (by decide) a2
    (fun m hm => by rw [List.mem_singleton.mp hm]; decide)
  have hw := this.1
  revert hw
  decide +kernel

/-- C121: notifications are always heard, provided neither of the two requests made has the sequence number 0. -/
theorem C121_notified_partial (seq0 pid : Nat) (buf : Bytes) (ds : List Dgram) (h1 : (seq0 + 1) % 2 ^ 32 ≠ 0) (h2 : (seq0 + 2) % 2 ^ 32 ≠ 0)
    (hd : ∀ d ∈ ds, Undisturbed pid ((seq0 + 1) % 2 ^ 32) ((seq0 + 2) % 2 ^ 32) d)
    (d : Dgram) (ms : List Bytes) (ht : d.trunc = false) (h4 : d.data.length % 4 = 0) (hb : d.data.length < 2 ^ 64) (hs : d.sender = 0)
    (hg : d.group ≠ 0) (hms : Messages d.data ms) (hf : ∀ m ∈ ms, (msgFlags m).testBit 4 = false) :
    Heard ((Mon.init seq0 pid buf).run ds) d ms := by
  obtain ⟨hi, hw⟩ := asked_init seq0 pid buf
  obtain ⟨ha, hw⟩ := asked_run h1 h2 ds _ hi hw hd
  generalize (Mon.init seq0 pid buf).run ds = M at ha hw
  have hh : ∀ (ms : List Bytes) (N N' : Mon), N' = { N with buf := N'.buf } → 0 ∈ N.pending → (∀ m ∈ ms, (msgFlags m).testBit 4 = false) →
      (N'.handle d.group ms).2 = true ∧ (N'.handle d.group ms).1.ifs = (ms.foldl Mon.rtnl N).ifs ∧
        (N'.handle d.group ms).1.log = (ms.foldl Mon.rtnl N).log := by
    intro ms
    induction ms with
    | nil => intro N N' e _ _; rw [e]; exact ⟨rfl, rfl, rfl⟩
    | cons m ms ih =>
      intro N N' e h0 hm
      have hp : N'.pending = N.pending := by rw [e]
      have e1 : N'.dispatch d.group m = some (N'.rtnl m) := by
        rcases dispatch_cases N' d.group m (hm m List.mem_cons_self) with x | ⟨k, _, _, ⟨hg0, _⟩ | ⟨_, x⟩⟩
        · unfold Mon.dispatch at x ⊢
          have hc : N'.pending.contains 0 = true := by rw [hp]; simpa using h0
          simp [hg, hc, hm m List.mem_cons_self] at x ⊢
          rw [hp] at x ⊢
          simp [h0] at x ⊢
        · exact absurd hg0 hg
        · exact x
      have e2 : ∀ (N : Mon) (b : Bytes), ({ N with buf := b } : Mon).rtnl m = { N.rtnl m with buf := b } := by
        intro N b
        have c : ∀ N : Mon, ({ N with buf := b } : Mon).changed = { N.changed with buf := b } := by
          intro N; unfold Mon.changed; dsimp only; split <;> rfl
        have l : ({ N with buf := b } : Mon).link m = { N.link m with buf := b } := by
          unfold Mon.link Mon.find
          dsimp only
          split
          · rfl
          · split
            · rfl
            · split
              · split <;> rfl
              · split <;> rfl
        have a : ({ N with buf := b } : Mon).address m = { N.address m with buf := b } := by
          unfold Mon.address Mon.find
          dsimp only
          split
          · rfl
          · split
            · rfl
            · split <;> rfl
        have dn : ({ N with buf := b } : Mon).doneMsg = { N.doneMsg with buf := b } := by
          unfold Mon.doneMsg; dsimp only; split <;> rfl
        unfold Mon.rtnl
        dsimp only
        rw [l, a, c, c, c, dn]
        split
        · rfl
        · split
          · rfl
          · split
            · rfl
            · split <;> rfl
      simp only [Mon.handle, e1, List.foldl_cons]
      refine ih (N.rtnl m) (N'.rtnl m) ?_ ?_ (fun x hx => hm x (List.mem_cons_of_mem _ hx))
      · have e3 : N'.rtnl m = { N.rtnl m with buf := N'.buf } := by rw [← e2]; exact congrArg (fun x => Mon.rtnl x m) e
        rw [e3]
      · rcases rtnl_cases N m with ⟨_, _, _, x, _⟩ | ⟨_, x, hpc⟩
        · rw [x]; exact h0
        · rw [x]
          cases hph : N.phase with
          | links => rw [doneMsg_links hph]; exact (mem_send _ _ _).mpr (.inr h0)
          | addrs => rw [doneMsg_addrs hph]; exact h0
          | complete => exact absurd hph hpc
  obtain ⟨r1, r2, r3⟩ := hh ms M { M with buf := d.data ++ M.buf.drop d.data.length } rfl ha.2.1 hf
  refine ⟨hw, ?_, ?_⟩
  · rw [recv_padded M d ms h4 hb hms ht hs]; dsimp only; rw [r1, if_pos rfl]; exact r2
  · rw [recv_padded M d ms h4 hb hms ht hs]; dsimp only; rw [r1, if_pos rfl]; exact r3

example : Heard ((Mon.init 0 7 []).run [⟨0, 0, false, doneFor 1⟩, ⟨0, 0, false, doneFor 2⟩]) ⟨0, 1, false, newLink⟩ [newLink] := by
  have a1 := single (m := doneFor 1) (by decide) (by decide) (by decide)
  have a2 := single (m := doneFor 2) (by decide) (by decide) (by decide)
  refine C121_notified_partial 0 7 [] _ (by decide) (by decide) ?_ _ _ rfl rfl (by decide) rfl (by decide)
    (single (m := newLink) (by decide) (by decide) (by decide)) (fun m hm => by rw [List.mem_singleton.mp hm]; decide)
  intro d hd
  rcases List.mem_cons.mp hd with rfl | hd
  · refine ⟨rfl, rfl, by decide, fun ms hms m hm => ?_⟩
    rw [messages_unique hms a1] at hm
    rw [List.mem_singleton.mp hm]
    decide
  · rw [List.mem_singleton.mp hd]
    refine ⟨rfl, rfl, by decide, fun ms hms m hm => ?_⟩
    rw [messages_unique hms a2] at hm
    rw [List.mem_singleton.mp hm]
    decide

/-- C121, claimed: once no answer is awaited any more, the enumeration is complete. -/
def C121_completes_claim : Prop := ∀ (seq0 pid : Nat) (buf : Bytes) (ds : List Dgram), (seq0 + 1) % 2 ^ 32 ≠ 0 → (seq0 + 2) % 2 ^ 32 ≠ 0 →
  (∀ d ∈ ds, Undisturbed pid ((seq0 + 1) % 2 ^ 32) ((seq0 + 2) % 2 ^ 32) d) →
  (∀ k ∈ ((Mon.init seq0 pid buf).run ds).pending, k = 0) → .enumCompleted ∈ ((Mon.init seq0 pid buf).run ds).log

/-- An error message as the answer to request 1: the system is out of memory, say. -/
def errorFor1 : Bytes := [36, 0, 0, 0, 2, 0, 0, 0, 1, 0, 0, 0, 7, 0, 0, 0, 0xf4, 0xff, 0xff, 0xff] ++ List.replicate 16 0

/-- An error as the answer to a request is logged and nothing else: the monitor neither asks again nor signals (parseErrorMessage,
network-monitor-impl-netlink.cpp 423-451), and the end of the enumeration is awaited for ever. -/
theorem C121_completes_counterexample : ¬ C121_completes_claim := by
  intro h
  have a := single (m := errorFor1) (by decide) (by decide) (by decide)
  have := h 0 7 [] [⟨0, 0, false, errorFor1⟩] (by decide) (by decide) (by
      intro d hd
      rw [List.mem_singleton.mp hd]
      refine ⟨rfl, rfl, by decide, fun ms hms m hm => ?_⟩
      rw [messages_unique hms a] at hm
      rw [List.mem_singleton.mp hm]
      decide)
    (by decide +kernel)
  revert this
  decide +kernel

/-- C121: provided every answer ends with a message saying that it is complete, the enumeration is complete once no answer is awaited
any more; and neither request has number 0. -/
theorem C121_completes_partial (seq0 pid : Nat) (buf : Bytes) (ds : List Dgram) (h1 : (seq0 + 1) % 2 ^ 32 ≠ 0) (h2 : (seq0 + 2) % 2 ^ 32 ≠ 0)
    (hd : ∀ d ∈ ds, Undisturbed pid ((seq0 + 1) % 2 ^ 32) ((seq0 + 2) % 2 ^ 32) d) (he : ∀ d ∈ ds, EndsWithDone pid d)
    (hp : ∀ k ∈ ((Mon.init seq0 pid buf).run ds).pending, k = 0) : .enumCompleted ∈ ((Mon.init seq0 pid buf).run ds).log := by
  obtain ⟨hi, hw⟩ := asked_init seq0 pid buf
  have h12 : (seq0 + 1) % 2 ^ 32 ≠ (seq0 + 2) % 2 ^ 32 := by omega
  have hawait : Awaited ((seq0 + 1) % 2 ^ 32) ((seq0 + 2) % 2 ^ 32) (Mon.init seq0 pid buf) :=
    ⟨fun _ => (mem_send _ _ _).mpr (.inl rfl), fun hh => by cases hh⟩
  have ha := awaited_run h12 h1 h2 ds _ hi hw hawait hd he
  have hs := (stage_run seq0 pid buf ds).1
  cases hph : ((Mon.init seq0 pid buf).run ds).phase with
  | links => exact absurd (hp _ (ha.1 hph)) h1
  | addrs => exact absurd (hp _ (ha.2 hph)) h2
  | complete =>
    simp only [hph] at hs
    have : Ev.enumCompleted ∈ progress ((Mon.init seq0 pid buf).run ds).log := by rw [hs]; simp
    exact (List.mem_filter.mp this).1

example : ((Mon.init 0 7 []).run [⟨0, 0, false, doneFor 1⟩, ⟨0, 0, false, doneFor 2⟩]).pending = [0] ∧
    .enumCompleted ∈ ((Mon.init 0 7 []).run [⟨0, 0, false, doneFor 1⟩, ⟨0, 0, false, doneFor 2⟩]).log := by decide +kernel

/-! ### C122: interfaces -/

/-- C122: whoever listens to the signals knows which interfaces there are, their states, MTUs and addresses; and every signal tells of
a change, from what was known before. -/
theorem C122_signals (seq0 pid : Nat) (buf : Bytes) (ds : List Dgram) :
    let M := (Mon.init seq0 pid buf).run ds
    (∀ idx, told M.log idx = (M.find idx).map snap) ∧ (∀ l1 e l2, M.log = l1 ++ e :: l2 → Truthful (told l1) e) := by
  have h := known_run seq0 pid buf ds
  refine ⟨h.1, fun l1 e l2 el => ?_⟩
  have h2 := h.2
  rw [el, honestFrom_append] at h2
  exact h2.2.1

/-- C122: the interfaces are listed in the order of their indices, each once, and found by them. -/
theorem C122_listed (seq0 pid : Nat) (buf : Bytes) (ds : List Dgram) :
    let M := (Mon.init seq0 pid buf).run ds
    M.ifs.Pairwise (fun a b => a.index < b.index) ∧ (∀ idx i, M.find idx = some i ↔ i ∈ M.ifs ∧ i.index = idx) := by
  have hs : Sorted ((Mon.init seq0 pid buf).run ds).ifs :=
    run_inv (fun M => Sorted M.ifs) sorted_rtnl (fun _ _ _ _ h => h) ds _ List.Pairwise.nil
  refine ⟨hs, fun idx i => ⟨fun h => ⟨List.mem_of_find?_eq_some h, find_index h⟩, ?_⟩⟩
  rintro ⟨hm, rfl⟩
  generalize (Mon.init seq0 pid buf).run ds = M at hs hm
  unfold Mon.find
  revert hs hm
  generalize M.ifs = l
  intro hs hm
  induction l with
  | nil => cases hm
  | cons x l ih =>
    obtain ⟨a, b⟩ := List.pairwise_cons.mp hs
    rw [List.find?_cons]
    rcases List.mem_cons.mp hm with rfl | hm
    · simp
    · have := a i hm
      have hne : ¬ x.index = i.index := by omega
      simp only [hne, decide_false]
      exact ih b hm

/-- C122: the state of an interface. -/
theorem C122_state (flags oper : Nat) (s : IfState) : operState flags oper = s ↔ InState flags oper s := by
  have h0 : flags.testBit 0 = decide (flags % 2 = 1) := by rw [bit_mod]; simp
  unfold operState
  rw [bit_mod, bit_mod, h0]
  constructor
  · rintro rfl
    split
    · exact .up ‹_›
    · split
      · exact .dormant ‹_›
      · split
        · rename_i h
          simp only [Bool.and_eq_true, decide_eq_true_eq, Bool.not_eq_true', decide_eq_false_iff_not] at h
          exact .lowerUp ‹_› ‹_› h.1 (by omega)
        · rename_i h
          simp only [Bool.and_eq_true, decide_eq_true_eq, Bool.not_eq_true', decide_eq_false_iff_not] at h
          split
          · rename_i hu
            exact .noCarrier ‹_› ‹_› (by omega) (by simpa using hu)
          · rename_i hu
            have hu : ¬ flags % 2 = 1 := by simpa using hu
            exact .down ‹_› ‹_› (by omega) (by omega)
  · intro h
    cases h with
    | up h => rw [if_pos h]
    | dormant h => rw [if_neg (by omega), if_pos h]
    | lowerUp a b c d =>
      rw [if_neg a, if_neg b, if_pos]
      simp only [Bool.and_eq_true, decide_eq_true_eq, Bool.not_eq_true', decide_eq_false_iff_not]
      omega
    | noCarrier a b c d =>
      rw [if_neg a, if_neg b, if_neg, if_pos (by simpa using d)]
      simp only [Bool.and_eq_true, decide_eq_true_eq, Bool.not_eq_true', decide_eq_false_iff_not]
      omega
    | down a b c d =>
      rw [if_neg a, if_neg b, if_neg, if_neg (by simpa using d)]
      simp only [Bool.and_eq_true, decide_eq_true_eq, Bool.not_eq_true', decide_eq_false_iff_not]
      omega

theorem find_changed (M : Mon) (idx : Int) : M.changed.find idx = M.find idx := by unfold Mon.changed; split <;> rfl

/-- C122: after a message about an Ethernet or loopback link with `ifi_index` `idx`, the interface with that index is listed, with the
type, flags and state of the message, the addresses, name and MTU it gives, or failing these those it had; its IP addresses, and all
other interfaces, are unchanged. -/
theorem C122_link (M : Mon) (m : Bytes) (as : List (Nat × Bytes)) (ht : msgType m = 16) (hl : 32 ≤ m.length)
    (hty : u16 m 18 = 1 ∨ u16 m 18 = 772) (ha : Attributes (m.drop 32) as) :
    let idx := toInt (u32 m 20)
    let old := (M.find idx).getD (Iface.new idx)
    ∃ i, (M.rtnl m).find idx = some i ∧ i.index = idx ∧ i.flags = u32 m 24 ∧ i.addrs = old.addrs ∧
      i.type = (if u16 m 18 = 1 then IfType.ethernet else IfType.loopback) ∧
      (∀ v, Value as 1 v → 6 ≤ v.length → i.ether = v.take 6) ∧ ((∀ v, Value as 1 v → v.length < 6) → i.ether = old.ether) ∧
      (∀ v, Value as 2 v → 6 ≤ v.length → i.brd = v.take 6) ∧ ((∀ v, Value as 2 v → v.length < 6) → i.brd = old.brd) ∧
      (∀ n rest, Value as 3 (n ++ 0 :: rest) → (0 : UInt8) ∉ n → i.name = n) ∧ ((∀ v, Value as 3 v → (0 : UInt8) ∉ v) → i.name = old.name) ∧
      (∀ v, Value as 4 v → 4 ≤ v.length → i.mtu = u32 v 0) ∧ ((∀ v, Value as 4 v → v.length < 4) → i.mtu = old.mtu) ∧
      (∀ v, Value as 16 v → v ≠ [] → InState (u32 m 24) (u8 v 0) i.state) ∧
      ((∀ v, Value as 16 v → v = []) → InState (u32 m 24) 0 i.state) ∧
      (∀ j, j ≠ idx → (M.rtnl m).find j = M.find j) := by
  intro idx old
  have has : msgAttrs m 16 = as := msgAttrs_eq 16 ha
  have hrt : M.rtnl m = (M.link m).changed := by unfold Mon.rtnl; simp [ht]
  have hpay : payload m 16 = some (m.drop 16) := by unfold payload; rw [if_neg (by omega)]
  have htype : ifType (u16 m 18) = if u16 m 18 = 1 then IfType.ethernet else IfType.loopback := by
    unfold ifType; rcases hty with h | h <;> rw [h] <;> rfl
  have hnu : ¬ ifType (u16 (m.drop 16) 2) = .unknown := by
    rw [u16_drop, htype]; split <;> simp
  have hfind : ∀ j, (M.rtnl m).find j = if idx = j then some (old.update (m.drop 16) as).1 else M.find j := by
    intro j
    rw [hrt, find_changed]
    unfold Mon.link
    rw [hpay]
    dsimp only
    rw [if_neg hnu, if_neg (by omega), u32_drop, has]
    have hix : ∀ i : Iface, (i.update (m.drop 16) as).1.index = i.index := fun i => (trans_update i _ _).1
    cases hf : M.find (toInt (u32 m (16 + 4))) with
    | some i =>
      have hold : old = i := by show (M.find idx).getD _ = i; rw [show M.find idx = some i from hf]; rfl
      dsimp only
      show (insertIf _ M.ifs).find? _ = _
      rw [find_insert, hix, hold, find_index hf]
      rfl
    | none =>
      have hold : old = Iface.new idx := by show (M.find idx).getD _ = _; rw [show M.find idx = none from hf]; rfl
      dsimp only
      show (insertIf _ M.ifs).find? _ = _
      rw [find_insert, hix, hold]
      rfl
  have holdi : old.index = idx := by
    show ((M.find idx).getD (Iface.new idx)).index = idx
    cases hf : M.find idx with
    | none => rfl
    | some i => exact find_index hf
  obtain ⟨e, _, hu⟩ := update_eq old (m.drop 16) as
  have hst : ∀ (i : Iface) s, (i.setState s).1 = { i with state := s } := by
    intro i s; unfold Iface.setState; split
    · rename_i h; rw [← h]
    · rfl
  have hmt : ∀ (i : Iface) s, (i.setMtu s).1 = { i with mtu := s } := by
    intro i s; unfold Iface.setMtu; split
    · rename_i h; rw [← h]
    · rfl
  have hi : (old.update (m.drop 16) as).1 =
      { old.fields (m.drop 16) as with
        mtu := ((attr as 4).bind toU32).getD old.mtu
        state := operState (u32 m 24) (((attr as 16).bind toU8).getD 0) } := by
    rw [hu]
    dsimp only
    rw [hst, u32_drop]
    cases (attr as 4).bind toU32 with
    | none => rfl
    | some x => dsimp only; rw [hmt]; rfl
  refine ⟨(old.update (m.drop 16) as).1, by rw [hfind, if_pos rfl], ?_⟩
  rw [hi]
  refine ⟨holdi, u32_drop _ _ _, rfl, ?_, ?_, ?_, ?_, ?_, ?_, ?_, ?_, ?_, ?_, ?_, ?_⟩
  · show ifType (u16 (m.drop 16) 2) = _
    rw [u16_drop]; exact htype
  · intro v hv hlen
    show ((attr as 1).bind (toFixed 6)).getD _ = _
    rw [fixed_of hv hlen]; rfl
  · intro hn
    show ((attr as 1).bind (toFixed 6)).getD _ = _
    rw [attr_none_of (fun v hv => by unfold toFixed; rw [if_pos (hn v hv)])]; rfl
  · intro v hv hlen
    show ((attr as 2).bind (toFixed 6)).getD _ = _
    rw [fixed_of hv hlen]; rfl
  · intro hn
    show ((attr as 2).bind (toFixed 6)).getD _ = _
    rw [attr_none_of (fun v hv => by unfold toFixed; rw [if_pos (hn v hv)])]; rfl
  · intro n rest hv h0
    show ((attr as 3).bind toStr).getD _ = _
    rw [(attr_iff _ _ _).mpr hv]
    show (toStr _).getD _ = _
    rw [(C120_text _ n).mpr ⟨h0, rest, rfl⟩]; rfl
  · intro hn
    show ((attr as 3).bind toStr).getD _ = _
    rw [attr_none_of (fun v hv => by unfold toStr; rw [if_neg]; simpa using hn v hv)]; rfl
  · intro v hv hlen
    show ((attr as 4).bind toU32).getD _ = _
    rw [(attr_iff _ _ _).mpr hv]
    show (toU32 v).getD _ = _
    unfold toU32; rw [if_neg (by omega)]; rfl
  · intro hn
    show ((attr as 4).bind toU32).getD _ = _
    rw [attr_none_of (fun v hv => by unfold toU32; rw [if_pos (hn v hv)])]; rfl
  · intro v hv hne
    rw [← C122_state, (attr_iff _ _ _).mpr hv]
    show operState _ (u8 v 0) = operState _ ((toU8 v).getD 0)
    unfold toU8
    rw [if_neg (by have := List.length_pos_iff.mpr hne; omega)]; rfl
  · intro hn
    rw [← C122_state, attr_none_of (f := toU8) (fun v hv => by rw [hn v hv]; rfl)]
    rfl
  · intro j hj
    rw [hfind, if_neg (fun h => hj h.symm)]

/-- C122: a message about a link of another type, or one too short, has no effect on the list; one about the deletion of an Ethernet or
loopback link removes the interface with its index, and no other. -/
theorem C122_unlink (M : Mon) (m : Bytes) (ht : msgType m = 17) (hl : 32 ≤ m.length) (hty : u16 m 18 = 1 ∨ u16 m 18 = 772) (j : Int) :
    (M.rtnl m).find j = if j = toInt (u32 m 20) then none else M.find j := by
  have hrt : M.rtnl m = (M.link m).changed := by unfold Mon.rtnl; simp [ht]
  have hpay : payload m 16 = some (m.drop 16) := by unfold payload; rw [if_neg (by omega)]
  have hnu : ¬ ifType (u16 (m.drop 16) 2) = .unknown := by
    rw [u16_drop]; unfold ifType; rcases hty with h | h <;> simp [h]
  rw [hrt, find_changed]
  unfold Mon.link
  rw [hpay]
  dsimp only
  rw [if_neg hnu, if_pos ht, u32_drop]
  cases hf : M.find (toInt (u32 m (16 + 4))) with
  | some i =>
    dsimp only
    show (M.ifs.filter _).find? _ = _
    rw [find_filter]
    by_cases h : j = toInt (u32 m 20)
    · rw [if_pos h, if_pos h.symm]
    · rw [if_neg h, if_neg (fun e => h e.symm)]; rfl
  | none =>
    dsimp only
    split
    · rename_i h; rw [h]; exact hf
    · rfl

theorem C122_other (M : Mon) (m : Bytes) (ht : msgType m = 16 ∨ msgType m = 17) (hl : m.length < 32 ∨ (u16 m 18 ≠ 1 ∧ u16 m 18 ≠ 772)) :
    (M.rtnl m).ifs = M.ifs := by
  have hrt : M.rtnl m = (M.link m).changed := by unfold Mon.rtnl; simp [ht]
  have hc : ∀ N : Mon, N.changed.ifs = N.ifs := by intro N; unfold Mon.changed; split <;> rfl
  rw [hrt, hc]
  unfold Mon.link payload
  split
  · rfl
  · rename_i p hp
    split at hp
    · cases hp
    · cases hp
      rw [if_pos]
      rw [u16_drop]
      unfold ifType
      rcases hl with h | ⟨h, h'⟩
      · exact absurd h (by omega)
      · rw [if_neg h, if_neg h']

/-- C122, claimed: an interface is listed until it is deleted; that is, until a deletion of a link of the general family (0). -/
def C122_bridge_claim : Prop := ∀ (M : Mon) (m : Bytes) (j : Int), msgType m = 17 → 32 ≤ m.length → u8 m 16 ≠ 0 → (M.rtnl m).find j = M.find j

/-- RTM_DELLINK of the family AF_BRIDGE (7), which the system sends when an Ethernet interface is taken out of a bridge: the interface
is still there, but is removed from the list, for the family is not looked at (parseLinkMessage, network-monitor-impl-netlink.cpp
247-275). -/
theorem C122_bridge_counterexample : ¬ C122_bridge_claim := by
  intro h
  have := h ((Mon.init 0 7 []).rtnl newLink)
    [32, 0, 0, 0, 17, 0, 0, 0, 0, 0, 0, 0, 0, 0, 0, 0, 7, 0, 1, 0, 2, 0, 0, 0, 1, 0, 0, 0, 0, 0, 0, 0] 2 (by decide) (by decide) (by decide)
  revert this
  decide +kernel

/-! ### C123: addresses -/

theorem address_eq {M : Mon} {m : Bytes} {new : Bool} {a : Addr} {i : Iface} {idx : Int} (h : About idx m new a) (hf : M.find idx = some i)
    (hn : ¬ (a.flags.testBit 6 = true ∧ new = true)) (j : Int) :
    (M.rtnl m).find j = if j = idx then some (if new then i.addAddr a else i.removeAddr a).1 else M.find j := by
  obtain ⟨hl, hidx, ht, as, has, hte⟩ := h
  have hrt : M.rtnl m = (M.address m).changed := by
    unfold Mon.rtnl
    cases new <;> simp at ht <;> simp [ht]
  have hpay : payload m 8 = some (m.drop 16) := by unfold payload; rw [if_neg (by omega)]
  have ha : addrOf (m.drop 16) (msgAttrs m 8) = a := by rw [msgAttrs_eq 8 (as := as) has]; exact addrOf_eq hte
  have hidx' : toInt (u32 m (16 + 4)) = idx := hidx
  rw [hrt, find_changed]
  unfold Mon.address
  rw [hpay]
  dsimp only
  rw [u32_drop, hidx', hf, ha]
  dsimp only
  have ht' : (msgType m = 20) = (new = true) := by cases new <;> simp at ht <;> simp [ht]
  have hcond : ¬ ((a.flags.testBit 6 && decide (msgType m = 20)) = true) := by
    rw [Bool.and_eq_true, decide_eq_true_eq, ht']
    exact hn
  rw [if_neg hcond]
  have hx : (if msgType m = 20 then i.addAddr a else i.removeAddr a) = if new then i.addAddr a else i.removeAddr a := by
    cases new <;> simp at ht <;> simp [ht]
  show (insertIf _ M.ifs).find? _ = _
  rw [hx, find_insert]
  have hindex : (if new then i.addAddr a else i.removeAddr a).1.index = idx := by
    cases new
    · exact (show i.index = idx from find_index hf)
    · show (i.addAddr a).1.index = idx
      unfold Iface.addAddr
      dsimp only
      split <;> exact (show i.index = idx from find_index hf)
  rw [hindex]
  by_cases hj : j = idx
  · rw [if_pos hj, if_pos hj.symm]
  · rw [if_neg hj, if_neg (fun e => hj e.symm)]; rfl

/-- C123: after a message about a new address of a listed interface, not tentative and not all zero, the interface has it, in place of
any with the same octets, and otherwise the addresses it had; no other interface changes. -/
theorem C123_new (M : Mon) (m : Bytes) (idx : Int) (a : Addr) (i : Iface) (h : About idx m true a) (hf : M.find idx = some i)
    (htent : a.flags.testBit 6 = false) (hz : a.ip.isUnspecified = false) :
    (∃ i', (M.rtnl m).find idx = some i' ∧ (∀ x, x ∈ i'.addrs ↔ x = a ∨ (x ∈ i.addrs ∧ x.ip ≠ a.ip))) ∧
    (∀ j, j ≠ idx → (M.rtnl m).find j = M.find j) := by
  have hh := address_eq h hf (by rw [htent]; simp)
  refine ⟨⟨(i.addAddr a).1, by rw [hh, if_pos rfl]; rfl, fun x => ?_⟩, fun j hj => by rw [hh, if_neg hj]⟩
  unfold Iface.addAddr
  rw [if_neg (by rw [hz]; simp)]
  simp only [List.mem_append, List.mem_filter, List.mem_singleton, decide_eq_true_eq]
  constructor
  · rintro (⟨p, q⟩ | p)
    · exact .inr ⟨p, q⟩
    · exact .inl p
  · rintro (p | ⟨p, q⟩)
    · exact .inr p
    · exact .inl ⟨p, q⟩

/-- C123: after a message about a removed address, the interface has those with other octets that it had. -/
theorem C123_removed (M : Mon) (m : Bytes) (idx : Int) (a : Addr) (i : Iface) (h : About idx m false a) (hf : M.find idx = some i) :
    (∃ i', (M.rtnl m).find idx = some i' ∧ (∀ x, x ∈ i'.addrs ↔ x ∈ i.addrs ∧ x.ip ≠ a.ip)) ∧
    (∀ j, j ≠ idx → (M.rtnl m).find j = M.find j) := by
  have hh := address_eq h hf (by simp)
  refine ⟨⟨(i.removeAddr a).1, by rw [hh, if_pos rfl]; rfl, fun x => ?_⟩, fun j hj => by rw [hh, if_neg hj]⟩
  unfold Iface.removeAddr
  simp only [List.mem_filter, decide_eq_true_eq]

/-- C123: a message about an interface not listed, and one about a new tentative address, has no effect on the list. -/
theorem C123_ignored (M : Mon) (m : Bytes) (idx : Int) (new : Bool) (a : Addr) (h : About idx m new a)
    (hi : M.find idx = none ∨ (new = true ∧ a.flags.testBit 6 = true)) : (M.rtnl m).ifs = M.ifs := by
  obtain ⟨hl, hidx, ht, as, has, hte⟩ := h
  have hrt : M.rtnl m = (M.address m).changed := by
    unfold Mon.rtnl
    cases new <;> simp at ht <;> simp [ht]
  have hc : ∀ N : Mon, N.changed.ifs = N.ifs := by intro N; unfold Mon.changed; split <;> rfl
  have hpay : payload m 8 = some (m.drop 16) := by unfold payload; rw [if_neg (by omega)]
  have ha : addrOf (m.drop 16) (msgAttrs m 8) = a := by rw [msgAttrs_eq 8 (as := as) has]; exact addrOf_eq hte
  have hidx' : toInt (u32 m (16 + 4)) = idx := hidx
  rw [hrt, hc]
  unfold Mon.address
  rw [hpay]
  dsimp only
  rw [u32_drop, hidx', ha]
  split
  · rfl
  · rename_i i hf
    rcases hi with hi | ⟨hn, hb⟩
    · rw [hf] at hi; cases hi
    · have : msgType m = 20 := by rw [ht, hn]; rfl
      rw [if_pos (by rw [hb, this]; rfl)]

/-- C123: the unspecified address is never added. -/
theorem C123_zero (M : Mon) (m : Bytes) (idx : Int) (a : Addr) (h : About idx m true a) (hz : a.ip.isUnspecified = true) (j : Int) :
    (M.rtnl m).find j = M.find j := by
  cases hf : M.find idx with
  | none =>
    have := C123_ignored M m idx true a h (.inl hf)
    unfold Mon.find; rw [this]
  | some i =>
    cases hb : a.flags.testBit 6 with
    | true =>
      have := C123_ignored M m idx true a h (.inr ⟨rfl, hb⟩)
      unfold Mon.find; rw [this]
    | false =>
      rw [address_eq h hf (by rw [hb]; simp)]
      split
      · rename_i hj
        rw [hj, hf, if_pos rfl]
        unfold Iface.addAddr
        rw [if_pos hz]
      · rfl

/-- C123, claimed: of an interface first listed without addresses, those are listed that the system has. -/
def C123_system_claim : Prop := ∀ (M : Mon) (idx : Int) (i : Iface) (ops : List (Bytes × Bool × Addr)),
  M.find idx = some i → i.addrs = [] →
  (∀ x ∈ ops, About idx x.1 x.2.1 x.2.2 ∧ x.2.2.flags.testBit 6 = false ∧ x.2.2.ip.isUnspecified = false) →
  ∃ i', ((ops.map (·.1)).foldl Mon.rtnl M).find idx = some i' ∧
    ∀ ip, (∃ a ∈ i'.addrs, a.ip = ip) ↔ ∃ plen, SystemHas (ops.map (·.2)) ip plen

/-- A message about 10.0.0.1 on interface 2: of type `t`, with the prefix length `plen`. -/
def addrMsg (t plen : UInt8) : Bytes :=
  [32, 0, 0, 0, t, 0, 0, 0, 0, 0, 0, 0, 0, 0, 0, 0, 2, plen, 0x80, 0, 2, 0, 0, 0, 8, 0, 2, 0, 10, 0, 0, 1]

def addr10 (plen : Nat) : Addr := ⟨.v4, .v4 [10, 0, 0, 1], Ip.none, plen, .globalScope, 0x80⟩

theorem about10 (new : Bool) (plen : UInt8) : About 2 (addrMsg (if new then 20 else 21) plen) new (addr10 plen.toNat) := by
  refine ⟨by show 24 ≤ 32; decide, by cases new <;> rfl, by cases new <;> rfl, [(2, [10, 0, 0, 1])], ?_, ?_⟩
  · have h : Attributes ([8, 0, 2, 0, 10, 0, 0, 1] : Bytes) [(2, [10, 0, 0, 1])] := by
      have := attrs_spec 9 [8, 0, 2, 0, 10, 0, 0, 1] (by decide)
      have e : attrs 9 [8, 0, 2, 0, 10, 0, 0, 1] = [(2, [10, 0, 0, 1])] := by decide
      rw [e] at this
      exact this
    cases new <;> exact h
  · have val : Value [(2, [10, 0, 0, 1])] 2 [10, 0, 0, 1] := ⟨[], [], rfl, fun x hx => by cases hx⟩
    have none : ∀ t, t ≠ 2 → ∀ v, ¬ Value [(2, [10, 0, 0, 1])] t v := by
      intro t ht v hv
      obtain ⟨l1, l2, e, _⟩ := hv
      have : (t, v) ∈ [((2 : Nat), ([10, 0, 0, 1] : Bytes))] := by rw [e]; simp
      rw [List.mem_singleton] at this
      exact ht (congrArg Prod.fst this)
    refine ⟨.inl ⟨by cases new <;> rfl, rfl, _, val, by decide, rfl⟩, .inr ⟨fun _ v hv => absurd hv (none 4 (by decide) v), rfl⟩, by cases new <;> rfl, ?_,
      .inr ⟨fun v hv => absurd hv (none 8 (by decide) v), by cases new <;> rfl⟩⟩
    exact .inr (.inr (.inr ⟨by cases new <;> (show (0 : UInt8).toNat < 253; decide), rfl⟩))

/-- Addresses are identified by their octets alone (operator<, network-address.hpp 125-129), but the system may have 10.0.0.1 both as
10.0.0.1/8 and as 10.0.0.1/16. When the latter is removed, the address is gone from the list, and from what listeners know. -/
theorem C123_system_counterexample : ¬ C123_system_claim := by
  intro h
  have hM : ((Mon.init 0 7 []).rtnl newLink).find 2 = some ((Iface.new 2).update (newLink.drop 16) []).1 := by decide +kernel
  obtain ⟨i', h1, h2⟩ := h ((Mon.init 0 7 []).rtnl newLink) 2 _
    [(addrMsg 20 8, true, addr10 8), (addrMsg 20 16, true, addr10 16), (addrMsg 21 16, false, addr10 16)] hM (by decide +kernel) (by
      intro x hx
      have o := fun (n : Bool) (p : UInt8) => about10 n p
      rcases List.mem_cons.mp hx with rfl | hx
      · exact ⟨o true 8, by decide, by decide⟩
      · rcases List.mem_cons.mp hx with rfl | hx
        · exact ⟨o true 16, by decide, by decide⟩
        · rw [List.mem_singleton.mp hx]
          exact ⟨o false 16, by decide, by decide⟩)
  have hs : SystemHas [(true, addr10 8), (true, addr10 16), (false, addr10 16)] (.v4 [10, 0, 0, 1]) 8 :=
    ⟨[], addr10 8, [(true, addr10 16), (false, addr10 16)], rfl, rfl, rfl, by decide⟩
  obtain ⟨a, ha, _⟩ := (h2 _).mpr ⟨8, hs⟩
  have he : (([addrMsg 20 8, addrMsg 20 16, addrMsg 21 16].foldl Mon.rtnl ((Mon.init 0 7 []).rtnl newLink)).find 2).map (·.addrs) = some [] := by
    decide +kernel
  have h1' : ([addrMsg 20 8, addrMsg 20 16, addrMsg 21 16].foldl Mon.rtnl ((Mon.init 0 7 []).rtnl newLink)).find 2 = some i' := h1
  rw [h1'] at he
  rw [Option.map_some, Option.some.injEq] at he
  rw [he] at ha
  cases ha

/-- C123: those are listed that the system has, provided it has no two with the same octets and different prefix lengths. -/
theorem C123_system_partial (M : Mon) (idx : Int) (i : Iface) (ops : List (Bytes × Bool × Addr)) (hf : M.find idx = some i) (hi : i.addrs = [])
    (ho : ∀ x ∈ ops, About idx x.1 x.2.1 x.2.2 ∧ x.2.2.flags.testBit 6 = false ∧ x.2.2.ip.isUnspecified = false)
    (hsame : ∀ x ∈ ops, ∀ y ∈ ops, x.2.2.ip = y.2.2.ip → x.2.2.plen = y.2.2.plen) :
    ∃ i', ((ops.map (·.1)).foldl Mon.rtnl M).find idx = some i' ∧
      ∀ ip, (∃ a ∈ i'.addrs, a.ip = ip) ↔ ∃ plen, SystemHas (ops.map (·.2)) ip plen := by
  -- listed iff added and not removed since, prefix lengths aside; by induction from the end
  have key : ∀ (ops : List (Bytes × Bool × Addr)) (r : List (Bytes × Bool × Addr)), ops = r.reverse →
      (∀ x ∈ ops, About idx x.1 x.2.1 x.2.2 ∧ x.2.2.flags.testBit 6 = false ∧ x.2.2.ip.isUnspecified = false) →
      ∃ i', ((ops.map (·.1)).foldl Mon.rtnl M).find idx = some i' ∧
        ∀ ip, (∃ a ∈ i'.addrs, a.ip = ip) ↔ ∃ l1 x l2, ops = l1 ++ x :: l2 ∧ x.2.1 = true ∧ x.2.2.ip = ip ∧ ∀ y ∈ l2, y.2.2.ip = ip → y.2.1 = true := by
    intro ops r
    induction r generalizing ops with
    | nil =>
      intro e _
      subst e
      refine ⟨i, hf, fun ip => ?_⟩
      rw [hi]
      constructor
      · rintro ⟨a, ha, _⟩; cases ha
      · rintro ⟨l1, x, l2, e, _⟩; cases l1 <;> cases e
    | cons z r ih =>
      intro e ho
      rw [List.reverse_cons] at e
      generalize hl : r.reverse = l at e
      subst e
      obtain ⟨i', h1, h2⟩ := ih l hl.symm (fun x hx => ho x (List.mem_append_left _ hx))
      obtain ⟨hz, hzt, hzu⟩ := ho z (List.mem_append_right _ List.mem_cons_self)
      rw [List.map_append, List.foldl_append]
      simp only [List.map_cons, List.map_nil, List.foldl_cons, List.foldl_nil]
      obtain ⟨zm, zn, za⟩ := z
      have split : ∀ ip, (∃ l1 x l2, l ++ [(zm, zn, za)] = l1 ++ x :: l2 ∧ x.2.1 = true ∧ x.2.2.ip = ip ∧ ∀ y ∈ l2, y.2.2.ip = ip → y.2.1 = true) ↔
          (zn = true ∧ za.ip = ip) ∨ ((za.ip = ip → zn = true) ∧ ∃ l1 x l2, l = l1 ++ x :: l2 ∧ x.2.1 = true ∧ x.2.2.ip = ip ∧ ∀ y ∈ l2, y.2.2.ip = ip → y.2.1 = true) := by
        intro ip
        constructor
        · rintro ⟨l1, x, l2, e, p, q, s⟩
          rcases List.append_eq_append_iff.mp e with ⟨c, e1, e2⟩ | ⟨c, e1, e2⟩
          · cases c with
            | nil =>
              simp only [List.nil_append, List.cons.injEq] at e2
              rw [← e2.1] at p q
              exact .inl ⟨p, q⟩
            | cons b c => simp at e2
          · cases c with
            | nil =>
              simp only [List.nil_append, List.cons.injEq] at e2
              rw [e2.1] at p q
              exact .inl ⟨p, q⟩
            | cons b c =>
              simp only [List.cons_append, List.cons.injEq] at e2
              refine .inr ⟨fun h => s (zm, zn, za) (by rw [e2.2]; simp) h, l1, x, c, by rw [e1, ← e2.1], p, q, fun y hy => s y (by rw [e2.2]; exact List.mem_append_left _ hy)⟩
        · rintro (⟨p, q⟩ | ⟨hz, l1, x, l2, e, p, q, s⟩)
          · exact ⟨l, _, [], rfl, p, q, fun y hy => by cases hy⟩
          · refine ⟨l1, x, l2 ++ [(zm, zn, za)], by rw [e]; simp, p, q, fun y hy => ?_⟩
            rcases List.mem_append.mp hy with hy | hy
            · exact s y hy
            · rw [List.mem_singleton.mp hy]; exact hz
      cases zn with
      | true =>
        obtain ⟨⟨i2, g1, g2⟩, _⟩ := C123_new _ zm idx za i' hz h1 hzt hzu
        refine ⟨i2, g1, fun ip => ?_⟩
        rw [split, ← h2]
        constructor
        · rintro ⟨a, ha, e⟩
          rcases (g2 a).mp ha with rfl | ⟨p, _⟩
          · exact .inl ⟨rfl, e⟩
          · exact .inr ⟨fun _ => rfl, a, p, e⟩
        · rintro (⟨_, e⟩ | ⟨_, a, p, e⟩)
          · exact ⟨za, (g2 za).mpr (.inl rfl), e⟩
          · by_cases hx : a.ip = za.ip
            · exact ⟨za, (g2 za).mpr (.inl rfl), hx ▸ e⟩
            · exact ⟨a, (g2 a).mpr (.inr ⟨p, hx⟩), e⟩
      | false =>
        obtain ⟨⟨i2, g1, g2⟩, _⟩ := C123_removed _ zm idx za i' hz h1
        refine ⟨i2, g1, fun ip => ?_⟩
        rw [split, ← h2]
        constructor
        · rintro ⟨a, ha, e⟩
          obtain ⟨p, q⟩ := (g2 a).mp ha
          exact .inr ⟨fun h => absurd (e.trans h.symm) q, a, p, e⟩
        · rintro (⟨h, _⟩ | ⟨h, a, p, e⟩)
          · cases h
          · exact ⟨a, (g2 a).mpr ⟨p, fun hx => by have := h (hx.symm.trans e); cases this⟩, e⟩
  obtain ⟨i', h1, h2⟩ := key ops ops.reverse (by simp) ho
  refine ⟨i', h1, fun ip => ?_⟩
  rw [h2]
  constructor
  · rintro ⟨l1, x, l2, e, p, q, s⟩
    refine ⟨x.2.2.plen, l1.map (·.2), x.2.2, l2.map (·.2), ?_, q, rfl, ?_⟩
    · rw [e, List.map_append, List.map_cons, show (x.2 : Bool × Addr) = (true, x.2.2) from Prod.ext p rfl]
    · intro y hy e1 _
      obtain ⟨y', hy', rfl⟩ := List.mem_map.mp hy
      exact s y' hy' e1
  · rintro ⟨plen, l1, a, l2, e, q, pe, s⟩
    obtain ⟨k1, k2, ek, e1, e2⟩ := List.map_eq_append_iff.mp e
    cases k2 with
    | nil => cases e2
    | cons x k2 =>
      rw [List.map_cons, List.cons.injEq] at e2
      have hx2 : x.2.2 = a := by rw [e2.1]
      refine ⟨k1, x, k2, ek, by rw [e2.1], by rw [hx2]; exact q, fun y hy hye => ?_⟩
      refine s y.2 (by rw [← e2.2]; exact List.mem_map_of_mem hy) hye ?_
      have hm1 : x ∈ ops := by rw [ek]; simp
      have hm2 : y ∈ ops := by rw [ek]; exact List.mem_append_right _ (List.mem_cons_of_mem _ hy)
      have := hsame y hm2 x hm1 (by rw [hye, hx2, q])
      rw [this, hx2, pe]

example : ∃ i', (([addrMsg 20 8, addrMsg 21 8, addrMsg 20 8]).foldl Mon.rtnl ((Mon.init 0 7 []).rtnl newLink)).find 2 = some i' ∧
    (∃ a ∈ i'.addrs, a.ip = .v4 [10, 0, 0, 1]) := by
  have hM : ((Mon.init 0 7 []).rtnl newLink).find 2 = some ((Iface.new 2).update (newLink.drop 16) []).1 := by decide +kernel
  obtain ⟨i', h1, h2⟩ := C123_system_partial ((Mon.init 0 7 []).rtnl newLink) 2 _
    [(addrMsg 20 8, true, addr10 8), (addrMsg 21 8, false, addr10 8), (addrMsg 20 8, true, addr10 8)] hM (by decide +kernel) (by
      intro x hx
      rcases List.mem_cons.mp hx with rfl | hx
      · exact ⟨about10 true 8, by decide, by decide⟩
      · rcases List.mem_cons.mp hx with rfl | hx
        · exact ⟨about10 false 8, by decide, by decide⟩
        · rw [List.mem_singleton.mp hx]
          exact ⟨about10 true 8, by decide, by decide⟩) (by decide)
  exact ⟨i', h1, (h2 _).mpr ⟨8, [(true, addr10 8), (false, addr10 8)], addr10 8, [], rfl, rfl, rfl, fun x hx => by cases hx⟩⟩

/-- C123: no two addresses listed of an interface have the same octets. -/
theorem C123_distinct (seq0 pid : Nat) (buf : Bytes) (ds : List Dgram) (i : Iface) (h : i ∈ ((Mon.init seq0 pid buf).run ds).ifs) :
    (i.addrs.map (·.ip)).Nodup := by
  have hu : ∀ (i : Iface) p as, (i.update p as).1.addrs = i.addrs := by
    intro i p as
    obtain ⟨e, _, hu⟩ := update_eq i p as
    have hst : ∀ (i : Iface) s, (i.setState s).1.addrs = i.addrs := by intro i s; unfold Iface.setState; split <;> rfl
    have hmt : ∀ (i : Iface) s, (i.setMtu s).1.addrs = i.addrs := by intro i s; unfold Iface.setMtu; split <;> rfl
    rw [hu]
    dsimp only
    rw [hst]
    cases (attr as 4).bind toU32 with
    | none => rfl
    | some x => dsimp only; rw [hmt]; rfl
  have hfl : ∀ (l : List Addr) (q : Addr → Bool), (l.map (·.ip)).Nodup → ((l.filter q).map (·.ip)).Nodup := by
    intro l q hn
    exact hn.sublist (List.filter_sublist.map _)
  have main := run_inv (fun M => ∀ i ∈ M.ifs, (i.addrs.map Addr.ip).Nodup)
    (rtnl_inv _ ?_ ?_ ?_ ?_) (fun _ _ _ _ h => h) ds (Mon.init seq0 pid buf) (fun i hi => by cases hi)
  · exact main i h
  · intro M m hM
    unfold Mon.link
    split
    · exact hM
    · split
      · exact hM
      · dsimp only
        split
        · split
          · intro i hi; exact hM i (List.mem_filter.mp hi).1
          · exact hM
        · split
          · rename_i j hf
            intro i hi
            rcases mem_insert hi with rfl | hi
            · rw [hu]; exact hM j (List.mem_of_find?_eq_some hf)
            · exact hM i hi
          · intro i hi
            rcases mem_insert hi with rfl | hi
            · rw [hu]; exact List.nodup_nil
            · exact hM i hi
  · intro M m hM
    unfold Mon.address
    split
    · exact hM
    · split
      · exact hM
      · rename_i j hf
        dsimp only
        split
        · exact hM
        · have hj := hM j (List.mem_of_find?_eq_some hf)
          intro i hi
          rcases mem_insert hi with rfl | hi
          · split
            · unfold Iface.addAddr
              dsimp only
              split
              · exact hj
              · rw [List.map_append, List.nodup_append]
                refine ⟨hfl _ _ hj, by simp, ?_⟩
                intro x hx y hy
                obtain ⟨a, ha, rfl⟩ := List.mem_map.mp hx
                simp only [List.map_cons, List.map_nil, List.mem_singleton] at hy
                rw [hy]
                simpa using (List.mem_filter.mp ha).2
            · exact hfl _ _ hj
          · exact hM i hi
  · intro M hM; unfold Mon.changed; split <;> exact hM
  · intro M hM; unfold Mon.doneMsg; split <;> exact hM

end Ndn.Netlink
