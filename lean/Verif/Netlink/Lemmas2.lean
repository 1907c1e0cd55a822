import Verif.Netlink.Inv
/-
Lemmas on datagrams as lists of messages, and on the effects of messages.
-/
namespace Ndn.Netlink
open Spec

/-! ### Datagrams as messages -/

theorem recv_padded (M : Mon) (d : Dgram) (ms : List Bytes) (h4 : d.data.length % 4 = 0) (hb : d.data.length < 2 ^ 64)
    (hm : Messages d.data ms) (ht : d.trunc = false) (hs : d.sender = 0) :
    M.recv d =
      (let r := ({ M with buf := d.data ++ M.buf.drop d.data.length } : Mon).handle d.group ms
       if r.2 then ({ r.1 with waiting := !r.1.pending.isEmpty }, .ok) else ({ r.1 with waiting := false }, .exception)) := by
  obtain ⟨ms', e, hm'⟩ := scan_padded ((d.data ++ M.buf.drop d.data.length).length + 1) [] d.data (M.buf.drop d.data.length) h4 hb
    (by rw [List.length_append]; omega)
  rw [messages_unique hm' hm] at e
  simp only [List.nil_append, List.length_nil] at e
  unfold Mon.recv
  simp only [ht, hs, e, Bool.false_eq_true, if_false, ne_eq, not_true_eq_false]

theorem messages_exists (b : Bytes) (h4 : b.length % 4 = 0) (hb : b.length < 2 ^ 64) : ∃ ms, Messages b ms := by
  obtain ⟨ms, _, h⟩ := scan_padded (b.length + 1) [] b [] h4 hb (by omega)
  exact ⟨ms, h⟩

/-! ### Pending requests -/

theorem link_parts (M : Mon) (m : Bytes) : (M.link m).phase = M.phase ∧ (M.link m).seq = M.seq ∧ (M.link m).pid = M.pid ∧ (M.link m).pending = M.pending := by
  unfold Mon.link
  split
  · exact ⟨rfl, rfl, rfl, rfl⟩
  · split
    · exact ⟨rfl, rfl, rfl, rfl⟩
    · dsimp only
      split
      · split <;> exact ⟨rfl, rfl, rfl, rfl⟩
      · split <;> exact ⟨rfl, rfl, rfl, rfl⟩

theorem address_parts (M : Mon) (m : Bytes) : (M.address m).phase = M.phase ∧ (M.address m).seq = M.seq ∧ (M.address m).pid = M.pid ∧ (M.address m).pending = M.pending := by
  unfold Mon.address
  split
  · exact ⟨rfl, rfl, rfl, rfl⟩
  · split
    · exact ⟨rfl, rfl, rfl, rfl⟩
    · dsimp only
      split <;> exact ⟨rfl, rfl, rfl, rfl⟩

theorem changed_parts (M : Mon) : M.changed.phase = M.phase ∧ M.changed.seq = M.seq ∧ M.changed.pid = M.pid ∧ M.changed.pending = M.pending := by
  unfold Mon.changed; split <;> exact ⟨rfl, rfl, rfl, rfl⟩

/-- Where things stand with the requests numbered `s1` and `s2`. -/
def Asked (s1 s2 pid : Nat) (M : Mon) : Prop :=
  M.pid = pid ∧ 0 ∈ M.pending ∧ (M.phase = .links → (M.seq + 1) % 2 ^ 32 = s2 ∧ ∀ k ∈ M.pending, k = 0 ∨ k = s1)

/-- Those not answered are pending. -/
def Awaited (s1 s2 : Nat) (M : Mon) : Prop := (M.phase = .links → s1 ∈ M.pending) ∧ (M.phase = .addrs → s2 ∈ M.pending)

theorem rtnl_cases (M : Mon) (m : Bytes) :
    ((M.rtnl m).phase = M.phase ∧ (M.rtnl m).seq = M.seq ∧ (M.rtnl m).pid = M.pid ∧ (M.rtnl m).pending = M.pending ∧
      (msgType m = 3 → M.phase = .complete)) ∨
    (msgType m = 3 ∧ M.rtnl m = M.doneMsg ∧ M.phase ≠ .complete) := by
  unfold Mon.rtnl
  dsimp only
  split
  · left
    have a := link_parts M m
    have b := changed_parts (M.link m)
    exact ⟨b.1.trans a.1, b.2.1.trans a.2.1, b.2.2.1.trans a.2.2.1, b.2.2.2.trans a.2.2.2, fun h => by omega⟩
  · split
    · left
      have a := address_parts M m
      have b := changed_parts (M.address m)
      exact ⟨b.1.trans a.1, b.2.1.trans a.2.1, b.2.2.1.trans a.2.2.1, b.2.2.2.trans a.2.2.2, fun h => by omega⟩
    · split
      · left
        have b := changed_parts M
        exact ⟨b.1, b.2.1, b.2.2.1, b.2.2.2, fun h => by omega⟩
      · split
        · rename_i h
          by_cases hp : M.phase = .complete
          · left
            have : M.doneMsg = M := by unfold Mon.doneMsg; rw [hp]
            rw [this]
            exact ⟨rfl, rfl, rfl, rfl, fun _ => hp⟩
          · exact .inr ⟨h, rfl, hp⟩
        · left; exact ⟨rfl, rfl, rfl, rfl, fun h => by omega⟩

theorem mem_send (l : List Nat) (s k : Nat) : k ∈ (if l.contains s then l else s :: l) ↔ k = s ∨ k ∈ l := by
  split
  · rename_i h
    have : s ∈ l := by simpa using h
    constructor
    · exact .inr
    · rintro (rfl | h)
      · exact this
      · exact h
  · simp

theorem doneMsg_links {M : Mon} (h : M.phase = .links) : M.doneMsg = { M with phase := .addrs }.sendDump 22 := by
  unfold Mon.doneMsg; rw [h]

theorem doneMsg_addrs {M : Mon} (h : M.phase = .addrs) : M.doneMsg = { M with phase := .complete, log := M.log ++ [.enumCompleted] } := by
  unfold Mon.doneMsg; rw [h]

theorem asked_rtnl {s1 s2 pid : Nat} (M : Mon) (m : Bytes) (h : Asked s1 s2 pid M) : Asked s1 s2 pid (M.rtnl m) := by
  rcases rtnl_cases M m with ⟨a, b, c, d, _⟩ | ⟨_, e, hp⟩
  · unfold Asked; rw [a, b, c, d]; exact h
  · rw [e]
    cases hph : M.phase with
    | links =>
      rw [doneMsg_links hph]
      refine ⟨h.1, ?_, fun hh => by cases hh⟩
      show 0 ∈ _
      exact (mem_send _ _ _).mpr (.inr h.2.1)
    | addrs =>
      rw [doneMsg_addrs hph]
      exact ⟨h.1, h.2.1, fun hh => by cases hh⟩
    | complete => exact absurd hph hp

theorem pending_rtnl {s1 s2 pid : Nat} {M : Mon} {m : Bytes} (h : Asked s1 s2 pid M) (k : Nat) (hk : k ∈ M.pending) : k ∈ (M.rtnl m).pending := by
  rcases rtnl_cases M m with ⟨_, _, _, d, _⟩ | ⟨_, e, hp⟩
  · rw [d]; exact hk
  · rw [e]
    cases hph : M.phase with
    | links => rw [doneMsg_links hph]; exact (mem_send _ _ _).mpr (.inr hk)
    | addrs => rw [doneMsg_addrs hph]; exact hk
    | complete => exact absurd hph hp

theorem dispatch_cases (M : Mon) (g : Nat) (m : Bytes) (hf : (msgFlags m).testBit 4 = false) :
    (M.dispatch g m = some M) ∨
    (∃ k, ((g ≠ 0 ∧ k = 0) ∨ (g = 0 ∧ msgPid m = M.pid ∧ k = msgSeq m)) ∧ k ∈ M.pending ∧
      ((g = 0 ∧ ((msgFlags m).testBit 1 = false ∨ msgType m = 3) ∧
          M.dispatch g m = some { M.rtnl m with pending := (M.rtnl m).pending.filter (· ≠ k) }) ∨
       ((g ≠ 0 ∨ ((msgFlags m).testBit 1 = true ∧ msgType m ≠ 3)) ∧ M.dispatch g m = some (M.rtnl m)))) := by
  have key : ∀ k, k ∈ M.pending → (if g ≠ 0 then some 0 else if msgPid m = M.pid then some (msgSeq m) else none) = some k →
      ((g = 0 ∧ ((msgFlags m).testBit 1 = false ∨ msgType m = 3) ∧
          M.dispatch g m = some { M.rtnl m with pending := (M.rtnl m).pending.filter (· ≠ k) }) ∨
       ((g ≠ 0 ∨ ((msgFlags m).testBit 1 = true ∧ msgType m ≠ 3)) ∧ M.dispatch g m = some (M.rtnl m))) := by
    intro k hk he
    unfold Mon.dispatch
    have hc : M.pending.contains k = true := by simpa using hk
    simp only [he, hc, hf, Bool.not_true, Bool.false_eq_true, if_false]
    split
    · rename_i hh
      refine .inl ⟨hh.1, ?_, rfl⟩
      rcases hh.2 with h | h
      · exact .inl (by simpa using h)
      · exact .inr h
    · rename_i hh
      refine .inr ⟨?_, rfl⟩
      by_cases hg : g = 0
      · refine .inr ⟨?_, fun h => hh ⟨hg, .inr h⟩⟩
        cases hb : (msgFlags m).testBit 1
        · exact absurd ⟨hg, .inl (by simp [hb])⟩ hh
        · rfl
      · exact .inl hg
  by_cases hg : g = 0
  · by_cases hp : msgPid m = M.pid
    · by_cases hk : msgSeq m ∈ M.pending
      · exact .inr ⟨msgSeq m, .inr ⟨hg, hp, rfl⟩, hk, key _ hk (by simp [hg, hp])⟩
      · left
        unfold Mon.dispatch
        have hc : M.pending.contains (msgSeq m) = false := by simpa using hk
        simp [hg, hp, hk]
    · left; unfold Mon.dispatch; simp [hg, hp]
  · by_cases hk : 0 ∈ M.pending
    · exact .inr ⟨0, .inl ⟨hg, rfl⟩, hk, key _ hk (by simp [hg])⟩
    · left; unfold Mon.dispatch; simp [hg, hk]

theorem asked_drop {s1 s2 pid k : Nat} {M : Mon} (h : Asked s1 s2 pid M) (hk : k ≠ 0) :
    Asked s1 s2 pid { M with pending := M.pending.filter (· ≠ k) } :=
  ⟨h.1, List.mem_filter.mpr ⟨h.2.1, by simpa using fun e => hk e.symm⟩,
    fun hp => ⟨(h.2.2 hp).1, fun x hx => (h.2.2 hp).2 x (List.mem_filter.mp hx).1⟩⟩

theorem asked_dispatch {s1 s2 pid g : Nat} {M : Mon} {m : Bytes} (h1 : s1 ≠ 0) (h2 : s2 ≠ 0) (h : Asked s1 s2 pid M)
    (hf : (msgFlags m).testBit 4 = false) (hq : g = 0 → msgPid m = pid → msgSeq m = s1 ∨ msgSeq m = s2) :
    ∃ M', M.dispatch g m = some M' ∧ Asked s1 s2 pid M' := by
  rcases dispatch_cases M g m hf with e | ⟨k, hk, hkp, ⟨hg, _, e⟩ | ⟨_, e⟩⟩
  · exact ⟨M, e, h⟩
  · refine ⟨_, e, asked_drop (asked_rtnl M m h) ?_⟩
    rcases hk with hk | ⟨_, hpid, hk⟩
    · exact absurd hg hk.1
    · rcases hq hg (hpid.trans h.1) with hh | hh <;> omega
  · exact ⟨_, e, asked_rtnl M m h⟩

theorem asked_handle {s1 s2 pid g : Nat} (h1 : s1 ≠ 0) (h2 : s2 ≠ 0) (ms : List Bytes) : ∀ M : Mon, Asked s1 s2 pid M →
    (∀ m ∈ ms, (msgFlags m).testBit 4 = false ∧ (g = 0 → msgPid m = pid → msgSeq m = s1 ∨ msgSeq m = s2)) →
    (M.handle g ms).2 = true ∧ Asked s1 s2 pid (M.handle g ms).1 := by
  induction ms with
  | nil => intro M h _; exact ⟨rfl, h⟩
  | cons m ms ih =>
    intro M h hm
    obtain ⟨hf, hq⟩ := hm m List.mem_cons_self
    obtain ⟨M', e, h'⟩ := asked_dispatch h1 h2 h hf hq
    simp only [Mon.handle, e]
    exact ih M' h' (fun x hx => hm x (List.mem_cons_of_mem _ hx))

theorem asked_waiting {s1 s2 pid : Nat} {M : Mon} (h : Asked s1 s2 pid M) : (!M.pending.isEmpty) = true := by
  have := h.2.1
  cases hp : M.pending with
  | nil => rw [hp] at this; cases this
  | cons a l => rfl

theorem asked_recv {s1 s2 pid : Nat} {M : Mon} {d : Dgram} (h1 : s1 ≠ 0) (h2 : s2 ≠ 0) (h : Asked s1 s2 pid M) (hw : M.waiting = true)
    (hd : Undisturbed pid s1 s2 d) : (M.recv d).2 = .ok ∧ Asked s1 s2 pid (M.recv d).1 ∧ (M.recv d).1.waiting = true := by
  obtain ⟨ht, h4, hb, hm⟩ := hd
  obtain ⟨ms, hms⟩ := messages_exists _ h4 hb
  by_cases hs : d.sender = 0
  · rw [recv_padded M d ms h4 hb hms ht hs]
    have := asked_handle (g := d.group) h1 h2 ms { M with buf := d.data ++ M.buf.drop d.data.length } h (hm ms hms)
    dsimp only
    rw [this.1, if_pos rfl]
    exact ⟨rfl, this.2, asked_waiting this.2⟩
  · unfold Mon.recv
    simp only [ht, Bool.false_eq_true, if_false, hs, ne_eq, not_false_eq_true, if_true]
    exact ⟨trivial, h, hw⟩

theorem asked_run {s1 s2 pid : Nat} (h1 : s1 ≠ 0) (h2 : s2 ≠ 0) (ds : List Dgram) : ∀ M : Mon, Asked s1 s2 pid M → M.waiting = true →
    (∀ d ∈ ds, Undisturbed pid s1 s2 d) → Asked s1 s2 pid (M.run ds) ∧ (M.run ds).waiting = true := by
  induction ds with
  | nil => intro M h hw _; exact ⟨h, hw⟩
  | cons d ds ih =>
    intro M h hw hd
    have := asked_recv h1 h2 h hw (hd d List.mem_cons_self)
    have hst : M.step d = (M.recv d).1 := by unfold Mon.step; rw [if_pos hw]
    show Asked s1 s2 pid ((M.step d).run ds) ∧ ((M.step d).run ds).waiting = true
    rw [hst]
    exact ih _ this.2.1 this.2.2 (fun x hx => hd x (List.mem_cons_of_mem _ hx))

theorem asked_init (seq0 pid : Nat) (buf : Bytes) :
    Asked ((seq0 + 1) % 2 ^ 32) ((seq0 + 2) % 2 ^ 32) pid (Mon.init seq0 pid buf) ∧ (Mon.init seq0 pid buf).waiting = true := by
  refine ⟨⟨rfl, ?_, fun _ => ⟨?_, ?_⟩⟩, rfl⟩
  · exact (mem_send _ _ _).mpr (.inr (by simp))
  · show ((seq0 + 1) % 2 ^ 32 + 1) % 2 ^ 32 = _
    omega
  · intro k hk
    rcases (mem_send _ _ _).mp hk with e | e
    · exact .inr e
    · exact .inl (by simpa using e)

/-! ### Completion -/

theorem awaited_dispatch {s1 s2 pid g : Nat} {M M' : Mon} {m : Bytes} (h12 : s1 ≠ s2) (h1 : s1 ≠ 0) (h2 : s2 ≠ 0) (h : Asked s1 s2 pid M)
    (ha : Awaited s1 s2 M) (hf : (msgFlags m).testBit 4 = false) (hq : g = 0 → msgPid m = pid → msgSeq m = s1 ∨ msgSeq m = s2)
    (he : g = 0 → msgPid m = pid → (msgFlags m).testBit 1 = true ∨ msgType m = 3)
    (e : M.dispatch g m = some M') : Awaited s1 s2 M' := by
  have hr : Awaited s1 s2 (M.rtnl m) := by
    rcases rtnl_cases M m with ⟨a, _, _, d, _⟩ | ⟨_, e, hp⟩
    · unfold Awaited; rw [a, d]; exact ha
    · rw [e]
      cases hph : M.phase with
      | links =>
        rw [doneMsg_links hph]
        refine ⟨fun hh => (by cases hh), fun _ => ?_⟩
        exact (mem_send _ _ _).mpr (.inl (h.2.2 hph).1.symm)
      | addrs => rw [doneMsg_addrs hph]; exact ⟨fun hh => (by cases hh), fun hh => (by cases hh)⟩
      | complete => exact absurd hph hp
  rcases dispatch_cases M g m hf with e' | ⟨k, hk, hkp, ⟨hg, hdone, e'⟩ | ⟨_, e'⟩⟩
  · rw [e] at e'; cases e'; exact ha
  · rw [e] at e'; cases e'
    rcases hk with hk | ⟨_, hpid, hk⟩
    · exact absurd hg hk.1
    · have hpid := hpid.trans h.1
      have ht : msgType m = 3 := by
        rcases hdone with hd | hd
        · rcases he hg hpid with x | x
          · rw [hd] at x; cases x
          · exact x
        · exact hd
      rcases rtnl_cases M m with ⟨a, _, _, d, hc⟩ | ⟨_, e, hp⟩
      · have hc := hc ht
        refine ⟨fun hh => ?_, fun hh => ?_⟩ <;> (have hh : (M.rtnl m).phase = _ := hh; rw [a, hc] at hh; cases hh)
      · cases hph : M.phase with
        | links =>
          have hks : k = s1 := by
            rcases (h.2.2 hph).2 k hkp with x | x
            · rcases hq hg hpid with y | y <;> omega
            · exact x
          refine ⟨fun hh => ?_, fun hh => ?_⟩
          · have hh : (M.rtnl m).phase = _ := hh
            rw [e, doneMsg_links hph] at hh; cases hh
          · have : (M.rtnl m).phase = .addrs := hh
            exact List.mem_filter.mpr ⟨hr.2 this, by simpa using fun x => h12 (hks.symm.trans x.symm)⟩
        | addrs =>
          refine ⟨fun hh => ?_, fun hh => ?_⟩ <;>
            (have hh : (M.rtnl m).phase = _ := hh; rw [e, doneMsg_addrs hph] at hh; cases hh)
        | complete => exact absurd hph hp
  · rw [e] at e'; cases e'; exact hr

theorem awaited_handle {s1 s2 pid g : Nat} (h12 : s1 ≠ s2) (h1 : s1 ≠ 0) (h2 : s2 ≠ 0) (ms : List Bytes) : ∀ M : Mon, Asked s1 s2 pid M →
    Awaited s1 s2 M →
    (∀ m ∈ ms, (msgFlags m).testBit 4 = false ∧ (g = 0 → msgPid m = pid → msgSeq m = s1 ∨ msgSeq m = s2)) →
    (∀ m ∈ ms, g = 0 → msgPid m = pid → (msgFlags m).testBit 1 = true ∨ msgType m = 3) →
    Awaited s1 s2 (M.handle g ms).1 := by
  induction ms with
  | nil => intro M _ ha _ _; exact ha
  | cons m ms ih =>
    intro M h ha hm he
    obtain ⟨hf, hq⟩ := hm m List.mem_cons_self
    obtain ⟨M', e, h'⟩ := asked_dispatch h1 h2 h hf hq
    simp only [Mon.handle, e]
    exact ih M' h' (awaited_dispatch h12 h1 h2 h ha hf hq (he m List.mem_cons_self) e) (fun x hx => hm x (List.mem_cons_of_mem _ hx))
      (fun x hx => he x (List.mem_cons_of_mem _ hx))

theorem awaited_run {s1 s2 pid : Nat} (h12 : s1 ≠ s2) (h1 : s1 ≠ 0) (h2 : s2 ≠ 0) (ds : List Dgram) : ∀ M : Mon, Asked s1 s2 pid M →
    M.waiting = true → Awaited s1 s2 M →
    (∀ d ∈ ds, Undisturbed pid s1 s2 d) → (∀ d ∈ ds, EndsWithDone pid d) → Awaited s1 s2 (M.run ds) := by
  induction ds with
  | nil => intro M _ _ h _ _; exact h
  | cons d ds ih =>
    intro M h hw ha hd he
    have hr := asked_recv h1 h2 h hw (hd d List.mem_cons_self)
    have hst : M.step d = (M.recv d).1 := by unfold Mon.step; rw [if_pos hw]
    show Awaited s1 s2 ((M.step d).run ds)
    rw [hst]
    refine ih _ hr.2.1 hr.2.2 ?_ (fun x hx => hd x (List.mem_cons_of_mem _ hx)) (fun x hx => he x (List.mem_cons_of_mem _ hx))
    obtain ⟨ht, h4, hb, hm⟩ := hd d List.mem_cons_self
    obtain ⟨ms, hms⟩ := messages_exists _ h4 hb
    by_cases hs : d.sender = 0
    · rw [recv_padded M d ms h4 hb hms ht hs]
      have h3 := asked_handle (g := d.group) h1 h2 ms { M with buf := d.data ++ M.buf.drop d.data.length } h (hm ms hms)
      have := awaited_handle (g := d.group) h12 h1 h2 ms { M with buf := d.data ++ M.buf.drop d.data.length } h ha (hm ms hms)
        (fun m hmm hg hp => he d List.mem_cons_self ms hms m hmm hg hp)
      dsimp only
      rw [h3.1, if_pos rfl]
      exact this
    · unfold Mon.recv
      simp only [ht, Bool.false_eq_true, if_false, hs, ne_eq, not_false_eq_true, if_true]
      exact ha

/-! ### Fields of messages -/

theorem u8_drop (b : Bytes) (n k : Nat) : u8 (b.drop n) k = u8 b (n + k) := by
  unfold u8
  simp only [List.getD_eq_getElem?_getD, List.getElem?_drop]

theorem u16_drop (b : Bytes) (n k : Nat) : u16 (b.drop n) k = u16 b (n + k) := by
  unfold u16; rw [u8_drop, u8_drop]; rfl

theorem u32_drop (b : Bytes) (n k : Nat) : u32 (b.drop n) k = u32 b (n + k) := by
  unfold u32; rw [u16_drop, u16_drop]; rfl

theorem msgAttrs_eq {m : Bytes} {as : List (Nat × Bytes)} (n : Nat) (h : Attributes (m.drop (16 + align4 n)) as) : msgAttrs m n = as := by
  unfold msgAttrs
  exact attributes_unique (attrs_spec _ _ (by omega)) h

theorem value_unique {as : List (Nat × Bytes)} {t : Nat} {v w : Bytes} (h : Value as t v) (h' : Value as t w) : v = w := by
  rw [← attr_iff] at h h'
  exact Option.some.inj (h.symm.trans h')

theorem fixed_of {as : List (Nat × Bytes)} {t n : Nat} {v : Bytes} (h : Value as t v) (hn : n ≤ v.length) : (attr as t).bind (toFixed n) = some (v.take n) := by
  rw [(attr_iff _ _ _).mpr h]
  show toFixed n v = _
  unfold toFixed; rw [if_neg (by omega)]

theorem attr_none_of {α : Type} {as : List (Nat × Bytes)} {t : Nat} {f : Bytes → Option α} (h : ∀ v, Value as t v → f v = none) : (attr as t).bind f = none := by
  cases ha : attr as t with
  | none => rfl
  | some v => exact h v ((attr_iff _ _ _).mp ha)

theorem addrOf_eq {m : Bytes} {as : List (Nat × Bytes)} {a : Addr} (h : Tells m as a) : addrOf (m.drop 16) as = a := by
  obtain ⟨h1, h2, h3, h4, h5⟩ := h
  have hfl : ((attr as 8).bind toU32).getD (u8 m 18) = a.flags := by
    rcases h5 with ⟨v, hv, hl, e⟩ | ⟨hn, e⟩
    · rw [(attr_iff _ _ _).mpr hv, e]
      show (toU32 v).getD _ = _
      unfold toU32; rw [if_neg (by omega)]; rfl
    · rw [attr_none_of (fun v hv => by unfold toU32; rw [if_pos (hn v hv)]), e]; rfl
  have hsc : scope (u8 m 19) = a.scope := by
    unfold scope
    rcases h4 with ⟨e, e'⟩ | ⟨e, e'⟩ | ⟨e, e'⟩ | ⟨e, e'⟩ <;> rw [e']
    · rw [if_pos e]
    · rw [if_neg (by omega), if_pos e]
    · rw [if_neg (by omega), if_neg (by omega), if_pos e]
    · rw [if_neg (by omega), if_neg (by omega), if_neg (by omega)]
  unfold addrOf
  simp only [u8_drop, u32_drop]
  rw [hfl, hsc, ← h3]
  rcases h1 with ⟨f, fe, v, hv, hl, e⟩ | ⟨f, fe, v, hv, hl, e⟩
  · have hfam : family 2 = a.family := by rw [fe]; rfl
    simp only [f, if_true]
    rw [hfam]
    rcases h2 with ⟨w, _, hw, hl', e'⟩ | ⟨hn, e'⟩
    · rw [fixed_of hv hl, fixed_of hw hl']
      dsimp only
      rw [← e, ← e']
    · rw [fixed_of hv hl, attr_none_of (fun v hv => by unfold toFixed; rw [if_pos (hn f v hv)])]
      dsimp only
      rw [← e, ← e']
  · have hb : a.brd = Ip.none := by
      rcases h2 with ⟨w, hh, _⟩ | ⟨_, e⟩
      · omega
      · exact e
    simp only [f, show ¬ ((10 : Nat) = 2) by omega, if_false, if_true]
    rw [fixed_of hv hl]
    have hll : linkLocal (v.take 16) = decide (u8 v 0 = 0xfe ∧ 0x80 ≤ u8 v 1 ∧ u8 v 1 < 0xc0) := by
      unfold linkLocal
      rw [u8_take _ _ _ (by omega), u8_take _ _ _ (by omega), ← Bool.decide_and]
      congr 1
      apply propext
      constructor <;> rintro ⟨x, y⟩ <;> refine ⟨x, ?_⟩ <;> omega
    have hfam : family 10 = a.family := by rw [fe]; rfl
    dsimp only
    rw [hll, hfam]
    rcases e with ⟨x, y, z, e⟩ | ⟨x, e⟩
    · rw [decide_eq_true (⟨x, y, z⟩ : u8 v 0 = 0xfe ∧ 0x80 ≤ u8 v 1 ∧ u8 v 1 < 0xc0), if_pos rfl, ← e, ← hb]
    · rw [decide_eq_false x, if_neg (by simp), ← e, ← hb]

theorem bit_mod (n k : Nat) : n.testBit k = decide (n / 2 ^ k % 2 = 1) := by
  rw [Nat.testBit_eq_decide_div_mod_eq]

end Ndn.Netlink
