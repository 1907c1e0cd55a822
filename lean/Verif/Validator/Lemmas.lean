import Verif.Validator.Spec
import Verif.Cert.CacheLemmas
/-
Lemmas for C51: what the caches, the anchors and the running validations contain.
-/
namespace Ndn.Validator
open Ndn.Name Ndn.Cert

variable {P : Type} {E : Env P}

/-- Observations that change neither the clock nor what is trusted. -/
def plain : Obs P → Bool
  | .clock _ | .anchorsReset | .verifiedReset => false
  | _ => true

theorem clockOf_append (a b : List (Obs P)) : clockOf (a ++ b) = b.foldl tick (clockOf a) := by
  simp [clockOf, List.foldl_append]

theorem clockOf_plain {a b : List (Obs P)} (h : ∀ o ∈ b, plain o = true) : clockOf (a ++ b) = clockOf a := by
  rw [clockOf_append]
  generalize clockOf a = t
  induction b with
  | nil => rfl
  | cons o b ih =>
    have := h o (by simp)
    have ho : tick t o = t := by cases o <;> simp_all [plain, tick]
    rw [List.foldl_cons, ho, ih (fun o ho => h o (by simp [ho]))]

theorem not_mem_plain {b : List (Obs P)} (h : ∀ o ∈ b, plain o = true) {o : Obs P} (ho : plain o = false) : o ∉ b :=
  fun hm => by simp [h o hm] at ho

theorem CurrentAnchor.append {log b : List (Obs P)} {c : Crt} (h : CurrentAnchor log c) (hb : ∀ o ∈ b, plain o = true) :
    CurrentAnchor (log ++ b) c := by
  obtain ⟨x, y, rfl, hy⟩ := h
  refine ⟨x, y ++ b, by simp, ?_⟩
  rw [List.mem_append]
  rintro (h | h)
  · exact hy h
  · exact not_mem_plain hb rfl h

/-- How a certificate came into the cache of verified certificates. -/
def Est (E : Env P) (a : List (Obs P)) (c : Crt) : Prop :=
  (∃ a', a = a' ++ [.userCached c]) ∨ ∃ r, Link E a c r ∧ Good E a r

theorem Est.good {a b : List (Obs P)} {c : Crt} (h : Est E a c) (hk : Kept a b c) : Good E (a ++ b) c := by
  rcases h with ⟨a', rfl⟩ | ⟨r, h1, h2⟩
  · exact .user hk
  · exact .kept h1 h2 hk

/-- A certificate whose entry is removed five minutes after it was received, or at the end of its period if that is first. -/
def Recent (log : List (Obs P)) (e : Entry) : Prop :=
  ∃ a b, log = a ++ .received e.cert :: b ∧ e.removal = min e.cert.notAfter (clockOf a + 300000000000)

theorem Recent.append {log : List (Obs P)} {e : Entry} (h : Recent log e) (b : List (Obs P)) : Recent (log ++ b) e := by
  obtain ⟨x, y, rfl, h1⟩ := h
  exact ⟨x, y ++ b, by simp, h1⟩

theorem Recent.mem {log : List (Obs P)} {e : Entry} (h : Recent log e) : Obs.received e.cert ∈ log := by
  obtain ⟨x, y, rfl, -⟩ := h; simp

/-- The stores of a validator agree with what was observed. -/
structure GInv (E : Env P) (log : List (Obs P)) (s : St P) : Prop where
  clk : s.verified.now = clockOf log
  clk' : s.unverified.now = clockOf log
  anc : ∀ e ∈ s.anchors, CurrentAnchor log e.cert
  ver : ∀ e ∈ s.verified.certs, ∃ a b, log = a ++ b ∧ Est E a e.cert ∧ Obs.verifiedReset ∉ b ∧
    e.removal ≤ e.cert.notAfter ∧ e.removal ≤ clockOf a + 3600000000000
  unv : ∀ e ∈ s.unverified.certs, Recent log e

theorem GInv.append {log b : List (Obs P)} {s : St P} (h : GInv E log s) (hb : ∀ o ∈ b, plain o = true) :
    GInv E (log ++ b) s := by
  refine ⟨by rw [clockOf_plain hb]; exact h.clk, by rw [clockOf_plain hb]; exact h.clk',
    fun e he => (h.anc e he).append hb, ?_, fun e he => (h.unv e he).append b⟩
  intro e he
  obtain ⟨x, y, rfl, h1, h2, h3, h4⟩ := h.ver e he
  refine ⟨x, y ++ b, by simp, h1, ?_, h3, h4⟩
  rw [List.mem_append]
  rintro (h | h)
  · exact h2 h
  · exact not_mem_plain hb rfl h

/-- Only the stores count. -/
theorem GInv.congr {log : List (Obs P)} {s s' : St P} (h : GInv E log s) (h1 : s'.anchors = s.anchors)
    (h2 : s'.verified = s.verified) (h3 : s'.unverified = s.unverified) : GInv E log s' :=
  ⟨h2 ▸ h.clk, h3 ▸ h.clk', h1 ▸ h.anc, h2 ▸ h.ver, h3 ▸ h.unv⟩

theorem mem_refresh {s : Cache} {e : Entry} : e ∈ s.refresh.certs ↔ e ∈ s.certs ∧ s.now ≤ e.removal := by
  simp [Cache.refresh, List.mem_filter]

theorem refresh_now (s : Cache) : s.refresh.now = s.now := rfl

theorem findInterest_some {s : Cache} {n : List Comp} {m : Crt → Bool} {c : Crt} (h : (s.findInterest n m).2 = some c) :
    ∃ e ∈ s.certs, e.cert = c ∧ s.now ≤ e.removal ∧ n <+: c.name ∧ m c = true := by
  obtain ⟨e, he, h1, h2, h3⟩ := scan_some h
  have := (mem_refresh).mp ((lowerBound_sublist _ _).subset he)
  exact ⟨e, this.1, h1, this.2, h2, h3⟩

theorem GInv.findVerified {log : List (Obs P)} {s : St P} (h : GInv E log s) (n : List Comp) (m : Crt → Bool) :
    GInv E log { s with verified := (s.verified.findInterest n m).1 } :=
  ⟨h.clk, h.clk', h.anc, fun e he => h.ver e (mem_refresh.mp he).1, h.unv⟩

theorem GInv.findUnverified {log : List (Obs P)} {s : St P} (h : GInv E log s) (n : List Comp) (m : Crt → Bool) :
    GInv E log { s with unverified := (s.unverified.findInterest n m).1 } :=
  ⟨h.clk, h.clk', h.anc, h.ver, fun e he => h.unv e (mem_refresh.mp he).1⟩

/-- What `findTrusted` finds is trusted. -/
theorem findTrusted_good {log : List (Obs P)} {s : St P} (h : GInv E log s) {n : List Comp} {c : Crt}
    (hf : (findTrusted E s n).2 = some c) : Good E log c ∧ E.isMatch n c = true ∧ n <+: c.name := by
  unfold findTrusted at hf
  split at hf
  · rename_i c' hc
    simp only [Option.some.injEq] at hf
    subst hf
    obtain ⟨e, he, rfl, h1, h2⟩ := scan_some hc
    exact ⟨.anchor (h.anc e ((lowerBound_sublist _ _).subset he)), h2, h1⟩
  · simp only at hf
    obtain ⟨e, he, rfl, h0, h1, h2⟩ := findInterest_some hf
    obtain ⟨a, b, rfl, h3, h4, h5, h6⟩ := h.ver e he
    refine ⟨h3.good ⟨h4, ?_, ?_⟩, h2, h1⟩
    · have := h.clk; omega
    · have := h.clk; omega

theorem findTrusted_inv {log : List (Obs P)} {s : St P} (h : GInv E log s) (n : List Comp) :
    GInv E log (findTrusted E s n).1 := by
  unfold findTrusted
  split
  · exact h
  · exact h.findVerified _ _

theorem findTrusted_same (s : St P) (n : List Comp) :
    (findTrusted E s n).1.vals = s.vals ∧ (findTrusted E s n).1.maxDepth = s.maxDepth := by
  unfold findTrusted
  split <;> exact ⟨rfl, rfl⟩

/-- `n` is what the policy asks for after the packet and the certificates (newest first). -/
def Wants (E : Env P) (p : P) : List Crt → List Comp → Prop
  | [], n => E.policy p = .request n
  | c :: cs, n => E.policyCert c = .request n ∧ ∃ m, Wants E p cs m ∧ E.isMatch m c = true ∧ m <+: c.name

/-- A certificate of the chain of a running validation. -/
def Checked (E : Env P) (log : List (Obs P)) (id : Nat) (p : P) (c : Crt) : Prop :=
  Obs.received c ∈ log ∧ ∃ a b, log = a ++ b ∧ Obs.started id p ∈ a ∧ E.notBefore c ≤ clockOf a ∧ clockOf a ≤ c.notAfter

structure Running (E : Env P) (log : List (Obs P)) (v : V P) : Prop where
  started : Obs.started v.id v.pkt ∈ log
  no : ∀ o ∈ log, isOutcome v.id o = false
  chain : ∀ c ∈ v.chain, Checked E log v.id v.pkt c

theorem Running.append {log b : List (Obs P)} {v : V P} (h : Running E log v) (hb : ∀ o ∈ b, isOutcome v.id o = false) :
    Running E (log ++ b) v := by
  refine ⟨List.mem_append_left _ h.started, ?_, ?_⟩
  · intro o ho
    rcases List.mem_append.mp ho with ho | ho
    · exact h.no o ho
    · exact hb o ho
  · intro c hc
    obtain ⟨h1, x, y, rfl, h2⟩ := h.chain c hc
    exact ⟨List.mem_append_left _ h1, x, y ++ b, by simp, h2⟩

theorem Checked.link {log : List (Obs P)} {id : Nat} {p : P} {c r : Crt} (h : Checked E log id p c)
    (hno : ∀ o ∈ log, isOutcome id o = false) (hs : E.verifyCert c r = true)
    (hp : ∃ n, E.policyCert c = .request n ∧ E.isMatch n r = true ∧ n <+: r.name) : Link E log c r := by
  obtain ⟨h1, a, b, h2, h3, h4⟩ := h
  exact ⟨hs, hp, h1, id, p, a, b, h2, h3, hno, h4⟩

/-- The certificates that verified are trusted, and the last of them is what the packet asks for. -/
theorem verifyChain_good {log : List (Obs P)} {id : Nat} {p : P} (hno : ∀ o ∈ log, isOutcome id o = false) :
    ∀ (chain : List Crt) (root : Crt) (n : List Comp), Good E log root → E.isMatch n root = true → n <+: root.name →
      (∀ c ∈ chain, Checked E log id p c) → Wants E p chain n →
      (∀ c ∈ (verifyChain E root chain).1, Est E log c) ∧
      (∀ r, (verifyChain E root chain).2 = some r →
        ∃ m, E.policy p = .request m ∧ E.isMatch m r = true ∧ m <+: r.name ∧ Good E log r) := by
  intro chain
  induction chain with
  | nil =>
    intro root n hg hm hp _ hw
    refine ⟨by simp [verifyChain], ?_⟩
    intro r hr
    simp only [verifyChain, Option.some.injEq] at hr
    subst hr
    exact ⟨n, hw, hm, hp, hg⟩
  | cons c cs ih =>
    intro root n hg hm hp hc hw
    unfold verifyChain
    by_cases hv : E.verifyCert c root = true
    · rw [if_pos hv]
      obtain ⟨h1, m, h2, h3, h4⟩ := hw
      have hl : Link E log c root := (hc c (by simp)).link hno hv ⟨n, h1, hm, hp⟩
      have := ih c m (.fresh hl hg) h3 h4 (fun x hx => hc x (by simp [hx])) h2
      refine ⟨?_, this.2⟩
      intro x hx
      rcases List.mem_cons.mp hx with rfl | hx
      · exact .inr ⟨root, hl, hg⟩
      · exact this.1 x hx
    · rw [if_neg hv]
      exact ⟨by simp, by simp⟩

theorem insert_entries {life : Int} {s : Cache} {c : Crt} {e : Entry} (h : e ∈ (s.insert life c).certs) :
    e ∈ s.certs ∨ (e.cert = c ∧ e.removal = min c.notAfter (s.now + life)) := by
  unfold Cache.insert at h
  split at h
  · exact .inl h
  · split at h
    · rcases mem_insertByName h with rfl | h
      · exact .inr ⟨rfl, rfl⟩
      · exact .inl h
    · exact .inl h

theorem GInv.insertVerified {a b : List (Obs P)} {s : St P} {c : Crt} (h : GInv E (a ++ b) s) (hb : ∀ o ∈ b, plain o = true)
    (hc : Est E a c) : GInv E (a ++ b) { s with verified := s.verified.insert verifiedLife c } := by
  refine ⟨?_, h.clk', h.anc, ?_, h.unv⟩
  · show (s.verified.insert verifiedLife c).now = _
    rw [insert_now]; exact h.clk
  · intro e he
    rcases insert_entries he with he | ⟨he, hr⟩
    · exact h.ver e he
    · refine ⟨a, b, rfl, he ▸ hc, not_mem_plain hb rfl, ?_, ?_⟩
      · rw [hr, he]; exact Int.min_le_left _ _
      · rw [hr]
        have h1 := h.clk
        rw [clockOf_plain hb] at h1
        have h2 := Int.min_le_right c.notAfter (s.verified.now + verifiedLife)
        unfold verifiedLife at h2 ⊢
        omega

theorem GInv.cacheAll {a b : List (Obs P)} (hb : ∀ o ∈ b, plain o = true) : ∀ (cs : List Crt) (s : St P),
    GInv E (a ++ b) s → (∀ c ∈ cs, Est E a c) → GInv E (a ++ b) (cacheAll s cs) := by
  intro cs
  induction cs with
  | nil => intro s h _; exact h
  | cons c cs ih =>
    intro s h hc
    exact ih _ (h.insertVerified hb (hc c (by simp))) (fun x hx => hc x (by simp [hx]))

theorem cacheAll_same (cs : List Crt) : ∀ s : St P, (cacheAll s cs).vals = s.vals ∧ (cacheAll s cs).maxDepth = s.maxDepth := by
  induction cs with
  | nil => intro s; exact ⟨rfl, rfl⟩
  | cons c cs ih => intro s; exact ih _

theorem GInv.insertUnverified {log : List (Obs P)} {s : St P} {c : Crt} (h : GInv E log s) :
    GInv E (log ++ [.received c]) { s with unverified := s.unverified.insert unverifiedLife c } := by
  have h' := h.append (b := [.received c]) (by simp [plain])
  refine ⟨h'.clk, ?_, h'.anc, h'.ver, ?_⟩
  · show (s.unverified.insert unverifiedLife c).now = _
    rw [insert_now]; exact h'.clk'
  · intro e he
    rcases insert_entries he with he | ⟨he, hr⟩
    · exact h'.unv e he
    · refine ⟨log, [], by rw [he], ?_⟩
      rw [hr, he, ← h.clk']; rfl

/-- What a piece of work on validation `v` produces. -/
structure Worked (E : Env P) (log : List (Obs P)) (s : St P) (v : V P) (r : St P × V P × List (Obs P)) : Prop where
  inv : GInv E (log ++ r.2.2) r.1
  vals : r.1.vals = s.vals
  depth : r.1.maxDepth = s.maxDepth
  id : r.2.1.id = v.id
  pkt : r.2.1.pkt = v.pkt
  obs : ∀ o ∈ r.2.2, plain o = true ∧ ∀ i, i ≠ v.id → isOutcome i o = false
  run : ∀ n k, (r.2.1.phase = .fetching n k ∨ r.2.1.phase = .backoff n k) →
    Running E (log ++ r.2.2) r.2.1 ∧ Wants E v.pkt r.2.1.chain n
  succ : ∀ pre i p post, r.2.2 = pre ++ .success i p :: post → i = v.id ∧ p = v.pkt ∧ pre = [] ∧ Acceptable E log p

theorem obs_failed (v : V P) (c : Code) : ∀ o ∈ (failed v c).2, plain o = true ∧ ∀ i, i ≠ v.id → isOutcome i o = false := by
  intro o ho
  unfold failed at ho
  simp only [List.mem_cons] at ho
  rcases ho with rfl | ho
  · exact ⟨rfl, fun i hi => by simp [isOutcome, Ne.symm hi]⟩
  · split at ho
    · simp only [List.mem_cons, List.not_mem_nil, or_false] at ho
      rcases ho with rfl | rfl
      · exact ⟨rfl, fun _ _ => rfl⟩
      · exact ⟨rfl, fun i hi => by simp [isOutcome, Ne.symm hi]⟩
    · cases ho

theorem obs_succeeded (v : V P) : ∀ o ∈ (succeeded v).2, plain o = true ∧ ∀ i, i ≠ v.id → isOutcome i o = false := by
  intro o ho
  unfold succeeded at ho
  simp only [List.mem_cons] at ho
  rcases ho with rfl | ho
  · exact ⟨rfl, fun i hi => by simp [isOutcome, Ne.symm hi]⟩
  · split at ho
    · simp only [List.mem_cons, List.not_mem_nil, or_false] at ho
      rcases ho with rfl | rfl
      · exact ⟨rfl, fun _ _ => rfl⟩
      · exact ⟨rfl, fun i hi => by simp [isOutcome, Ne.symm hi]⟩
    · cases ho

theorem failed_no_success (v : V P) (c : Code) {pre : List (Obs P)} {i : Nat} {p : P} {post : List (Obs P)} :
    (failed v c).2 ≠ pre ++ .success i p :: post := by
  intro h
  have : Obs.success i p ∈ (failed v c).2 := by rw [h]; simp
  unfold failed at this
  simp only [List.mem_cons, reduceCtorEq, false_or] at this
  split at this <;> simp at this

theorem succeeded_success {v : V P} {pre : List (Obs P)} {i : Nat} {p : P} {post : List (Obs P)}
    (h : (succeeded v).2 = pre ++ .success i p :: post) : i = v.id ∧ p = v.pkt ∧ pre = [] := by
  unfold succeeded at h
  simp only at h
  cases pre with
  | nil =>
    simp only [List.nil_append, List.cons.injEq, Obs.success.injEq] at h
    exact ⟨h.1.1.symm, h.1.2.symm, rfl⟩
  | cons x pre =>
    simp only [List.cons_append, List.cons.injEq] at h
    have : Obs.success i p ∈ (if v.throwsOk then [Obs.threw v.id, .failure v.id .implementation] else []) := by rw [h.2]; simp
    split at this <;> simp at this

theorem worked_failed {log : List (Obs P)} {s s' : St P} {v v' : V P} (c : Code) (hi : GInv E log s') (hv : s'.vals = s.vals)
    (hd : s'.maxDepth = s.maxDepth) (h1 : v'.id = v.id) (h2 : v'.pkt = v.pkt) : Worked E log s v (s', failed v' c) := by
  refine ⟨hi.append (fun o ho => (obs_failed v' c o ho).1), hv, hd, h1, h2, ?_, ?_, ?_⟩
  · rw [← h1]; exact obs_failed v' c
  · intro n k h; simp [failed] at h
  · intro pre i p post h; exact absurd h (failed_no_success v' c)

theorem worked_succeeded {log : List (Obs P)} {s s' : St P} {v v' : V P} (hi : GInv E log s') (hv : s'.vals = s.vals)
    (hd : s'.maxDepth = s.maxDepth) (h1 : v'.id = v.id) (h2 : v'.pkt = v.pkt) (ha : Acceptable E log v.pkt) :
    Worked E log s v (s', succeeded v') := by
  refine ⟨hi.append (fun o ho => (obs_succeeded v' o ho).1), hv, hd, h1, h2, ?_, ?_, ?_⟩
  · rw [← h1]; exact obs_succeeded v'
  · intro n k h; simp [succeeded] at h
  · intro pre i p post h
    obtain ⟨h3, h4, h5⟩ := succeeded_success h
    refine ⟨by rw [h3, h1], by rw [h4, h2], h5, ?_⟩
    rw [h4, h2]; exact ha

theorem conclude_worked {log : List (Obs P)} {s s' : St P} {v v' : V P} {root : Crt} {n : List Comp} (hi : GInv E log s')
    (hv : s'.vals = s.vals) (hd : s'.maxDepth = s.maxDepth) (h1 : v'.id = v.id) (h2 : v'.pkt = v.pkt) (hr : Running E log v')
    (hw : Wants E v.pkt v'.chain n) (hg : Good E log root) (hm : E.isMatch n root = true) (hp : n <+: root.name) :
    Worked E log s v (conclude E s' v' root) := by
  have hvc := verifyChain_good (E := E) (log := log) (id := v'.id) (p := v'.pkt) hr.no v'.chain root n hg hm hp hr.chain
    (by rw [h2]; exact hw)
  have key : ∀ (o : V P × List (Obs P)) (b : Bool), Worked E log s v (s', o) →
      Worked E log s v (if b then s' else cacheAll s' (verifyChain E root v'.chain).1, o) := by
    intro o b h
    cases b with
    | true => exact h
    | false =>
      refine ⟨GInv.cacheAll (fun x hx => (h.obs x hx).1) _ _ h.inv hvc.1, ?_, ?_, h.id, h.pkt, h.obs, h.run, h.succ⟩
      · exact (cacheAll_same _ s').1.trans hv
      · exact (cacheAll_same _ s').2.trans hd
  unfold conclude
  simp only
  cases hc : (verifyChain E root v'.chain).2 with
  | none =>
    simp only
    exact key _ _ (worked_failed _ hi hv hd h1 h2)
  | some c =>
    simp only
    obtain ⟨m, h3, h4, h5, h6⟩ := hvc.2 c hc
    apply key
    by_cases hk : E.verify v'.pkt c = true
    · rw [if_pos hk]
      refine worked_succeeded hi hv hd h1 h2 (.inr (.inr ⟨m, c, h2 ▸ h3, h4, h5, h2 ▸ hk, h6⟩))
    · rw [if_neg hk]
      exact worked_failed _ hi hv hd h1 h2

/-- What is known when a task is begun. -/
def Ready (E : Env P) (log : List (Obs P)) (v : V P) : Task → Prop
  | .request n => Wants E v.pkt v.chain n
  | .fetch n _ => Wants E v.pkt v.chain n
  | .cert c => Obs.received c ∈ log ∧ ∃ m, Wants E v.pkt v.chain m ∧ E.isMatch m c = true ∧ m <+: c.name

theorem Wants.digest {log : List (Obs P)} {v : V P} (hr : Running E log v) (hw : Wants E v.pkt v.chain E.digestName) :
    E.policy v.pkt = .request E.digestName ∨ ∃ c, Obs.received c ∈ log ∧ E.policyCert c = .request E.digestName := by
  cases hc : v.chain with
  | nil => rw [hc] at hw; exact .inl hw
  | cons c cs =>
    rw [hc] at hw
    exact .inr ⟨c, (hr.chain c (by simp [hc])).1, hw.1⟩

theorem Worked.of_inner {log : List (Obs P)} {s s' : St P} {v v' : V P} {r : St P × V P × List (Obs P)}
    (h : Worked E log s' v' r) (hv : s'.vals = s.vals) (hd : s'.maxDepth = s.maxDepth) (h1 : v'.id = v.id) (h2 : v'.pkt = v.pkt) :
    Worked E log s v r :=
  ⟨h.inv, h.vals.trans hv, h.depth.trans hd, h.id.trans h1, h.pkt.trans h2, h1 ▸ h.obs, h2 ▸ h.run, by
    intro pre i p post he
    obtain ⟨h3, h4, h5, h6⟩ := h.succ pre i p post he
    exact ⟨h3.trans h1, h4.trans h2, h5, h6⟩⟩

theorem go_worked {log : List (Obs P)} : ∀ (fuel : Nat) (s : St P) (v : V P) (t : Task), GInv E log s → Running E log v →
    Ready E log v t → Worked E log s v (go E fuel s v t) := by
  intro fuel
  induction fuel with
  | zero =>
    intro s v t hi _ _
    refine ⟨hi.append (by simp [go, plain]), rfl, rfl, rfl, rfl, ?_, ?_, ?_⟩
    · intro o ho; simp only [go, List.mem_singleton] at ho; subst ho; exact ⟨rfl, fun _ _ => rfl⟩
    · intro n k h; simp [go] at h
    · intro pre i p post h
      have : Obs.success i p ∈ (go E 0 s v t).2.2 := by rw [h]; simp
      simp [go] at this
  | succ fuel ih =>
    intro s v t hi hr ht
    cases t with
    | request n =>
      unfold go
      split
      · exact worked_failed _ hi rfl rfl rfl rfl
      · split
        · rename_i hn
          subst hn
          by_cases hk : E.digestOk v.pkt = true
          · rw [if_pos hk]
            exact worked_succeeded hi rfl rfl rfl rfl (.inr (.inl ⟨hk, Wants.digest hr ht⟩))
          · rw [if_neg hk]; exact worked_failed _ hi rfl rfl rfl rfl
        · split
          · exact worked_failed _ hi rfl rfl rfl rfl
          · simp only
            have hr' : Running E log { v with seen := n :: v.seen } := ⟨hr.started, hr.no, hr.chain⟩
            have hi' := findTrusted_inv hi n
            have hsame := findTrusted_same (E := E) s n
            split
            · rename_i s' root hf
              rw [hf] at hi' hsame
              obtain ⟨hg, hm, hp⟩ := findTrusted_good (E := E) (n := n) hi (c := root) (by rw [hf])
              exact conclude_worked hi' hsame.1 hsame.2 rfl rfl hr' ht hg hm hp
            · rename_i s' hf
              rw [hf] at hi' hsame
              exact (ih s' { v with seen := n :: v.seen } (.fetch n 3) hi' hr' ht).of_inner hsame.1 hsame.2 rfl rfl
    | fetch n k =>
      unfold go
      simp only
      have hi' := hi.findUnverified n (E.isMatch n)
      split
      · rename_i c hf
        obtain ⟨e, he, rfl, _, h1, h2⟩ := findInterest_some hf
        exact (ih _ v (.cert e.cert) hi' hr ⟨(hi.unv e he).mem, n, ht, h2, h1⟩).of_inner rfl rfl rfl rfl
      · split
        · exact worked_failed _ hi' rfl rfl rfl rfl
        · refine ⟨hi'.append (by simp [plain]), rfl, rfl, rfl, rfl, ?_, ?_, ?_⟩
          · intro o ho
            simp only [List.mem_singleton] at ho
            subst ho; exact ⟨rfl, fun _ _ => rfl⟩
          · intro m k' h
            simp only [Phase.fetching.injEq, reduceCtorEq, or_false] at h
            obtain ⟨rfl, _⟩ := h
            have := hr.append (b := [.interest v.id n]) (by simp [isOutcome])
            exact ⟨⟨this.started, this.no, this.chain⟩, ht⟩
          · intro pre i p post h
            have : Obs.success i p ∈ ([.interest v.id n] : List (Obs P)) := by
              have h : [Obs.interest v.id n] = pre ++ .success i p :: post := h
              rw [h]; simp
            simp at this
    | cert c =>
      unfold go
      obtain ⟨hrec, m, hw, hm, hp⟩ := ht
      split
      · exact worked_failed _ hi rfl rfl rfl rfl
      · rename_i hval
        have hval := Decidable.not_not.mp hval
        split
        · exact worked_failed _ hi rfl rfl rfl rfl
        · exact worked_failed _ hi rfl rfl rfl rfl
        · exact worked_failed _ hi rfl rfl rfl rfl
        · rename_i n hpol
          refine (ih s { v with chain := c :: v.chain } (.request n) hi ⟨hr.started, hr.no, ?_⟩ ⟨hpol, m, hw, hm, hp⟩).of_inner rfl rfl rfl rfl
          intro x hx
          rcases List.mem_cons.mp hx with rfl | hx
          · refine ⟨hrec, log, [], by simp, hr.started, ?_⟩
            rw [← hi.clk]; exact hval
          · exact hr.chain x hx

/-- A validation in the list. -/
structure VInv (E : Env P) (log : List (Obs P)) (v : V P) : Prop where
  started : Obs.started v.id v.pkt ∈ log
  run : ∀ n k, (v.phase = .fetching n k ∨ v.phase = .backoff n k) → Running E log v ∧ Wants E v.pkt v.chain n

theorem VInv.append {log b : List (Obs P)} {v : V P} (h : VInv E log v) (hb : ∀ o ∈ b, isOutcome v.id o = false) :
    VInv E (log ++ b) v :=
  ⟨List.mem_append_left _ h.started, fun n k hp => ⟨((h.run n k hp).1).append hb, (h.run n k hp).2⟩⟩

structure SInv (E : Env P) (log : List (Obs P)) (s : St P) : Prop where
  g : GInv E log s
  v : ∀ v ∈ s.vals, VInv E log v

/-- What a step does. -/
structure Stepped (E : Env P) (log : List (Obs P)) (r : St P × List (Obs P)) : Prop where
  inv : SInv E (log ++ r.2) r.1
  succ : ∀ pre i p post, r.2 = pre ++ .success i p :: post →
    Obs.started i p ∈ log ++ pre ∧ Acceptable E (log ++ pre) p

theorem stepped_nil {log : List (Obs P)} {s : St P} (h : SInv E log s) : Stepped E log (s, []) :=
  ⟨by simpa using h, by intro pre i p post h; simp at h⟩

/-- A step that observes one thing that is no outcome. -/
theorem stepped_one {log : List (Obs P)} {s : St P} {o : Obs P} (hg : GInv E (log ++ [o]) s) (hv : ∀ v ∈ s.vals, VInv E log v)
    (ho : ∀ i, isOutcome i o = false) : Stepped E log (s, [o]) := by
  refine ⟨⟨hg, fun v hm => (hv v hm).append (by simp [ho])⟩, ?_⟩
  intro pre i p post h
  have : Obs.success i p ∈ ([o] : List (Obs P)) := by rw [show [o] = _ from h]; simp
  simp only [List.mem_singleton] at this
  have h2 := ho i
  rw [← this] at h2
  simp [isOutcome] at h2

theorem mem_put {l : List (V P)} {v x : V P} (h : x ∈ put l v) : x = v ∨ (x ∈ l ∧ x.id ≠ v.id) := by
  unfold put at h
  obtain ⟨y, hy, he⟩ := List.mem_map.mp h
  split at he
  · exact .inl he.symm
  · exact .inr (he ▸ ⟨hy, by assumption⟩)

theorem find_some {l : List (V P)} {id : Nat} {v : V P} (h : find l id = some v) : v ∈ l ∧ v.id = id := by
  unfold find at h
  exact ⟨List.mem_of_find?_eq_some h, by simpa using List.find?_some h⟩

theorem find_none {l : List (V P)} {id : Nat} (h : find l id = none) : ∀ v ∈ l, v.id ≠ id := by
  unfold find at h
  simpa using h

theorem stepped_worked {log pre0 : List (Obs P)} {s : St P} {v : V P} {r : St P × V P × List (Obs P)} (hs : Obs.started v.id v.pkt ∈ log)
    (hpre : ∀ o ∈ pre0, ∀ i, isOutcome i o = false)
    (hv : ∀ v ∈ s.vals, VInv E log v) (hw : Worked E (log ++ pre0) s v r) : Stepped E log ((back r).1, pre0 ++ (back r).2) := by
  refine ⟨⟨?_, ?_⟩, ?_⟩
  · show GInv E (log ++ (pre0 ++ r.2.2)) _
    rw [← List.append_assoc]
    exact hw.inv.congr rfl rfl rfl
  · intro x hx
    show VInv E (log ++ (pre0 ++ r.2.2)) x
    rw [← List.append_assoc]
    rcases mem_put hx with rfl | ⟨hx, hne⟩
    · refine ⟨?_, ?_⟩
      · rw [hw.id, hw.pkt]; simp [hs]
      · intro n k hp
        have := hw.run n k hp
        rw [hw.pkt]
        exact this
    · rw [hw.vals] at hx
      rw [hw.id] at hne
      refine ((hv x hx).append (fun o ho => hpre o ho _)).append ?_
      intro o ho
      exact (hw.obs o ho).2 _ hne
  · intro pre i p post h
    have h : pre0 ++ r.2.2 = pre ++ .success i p :: post := h
    rcases List.append_eq_append_iff.mp h with ⟨as, h1, h2⟩ | ⟨bs, h1, h2⟩
    · obtain ⟨rfl, rfl, h3, h4⟩ := hw.succ as i p post h2
      subst h3
      rw [List.append_nil] at h1
      subst h1
      exact ⟨by simp [hs], h4⟩
    · cases bs with
      | nil =>
        simp only [List.nil_append] at h2
        obtain ⟨rfl, rfl, _, h4⟩ := hw.succ [] i p post h2.symm
        simp only [List.append_nil] at h1
        subst h1
        exact ⟨by simp [hs], h4⟩
      | cons b bs =>
        simp only [List.cons_append, List.cons.injEq] at h2
        have := hpre b (by rw [h1]; simp) i
        rw [← h2.1] at this
        simp [isOutcome] at this

theorem noReset_clock {b : List (Obs P)} (t : Int) (h : Obs.verifiedReset ∉ b) : (Obs.verifiedReset : Obs P) ∉ b ++ [.clock t] := by
  simp [h]

theorem step_stepped {log : List (Obs P)} {s : St P} (h : SInv E log s) (op : Op P) : 
    (∀ o ∈ log, ∀ i, find s.vals i = none → isOutcome i o = false) → Stepped E log (step E s op) := by
  intro hnone
  cases op with
  | validate id p a b =>
    simp only [step]
    split
    · exact stepped_nil h
    · rename_i hf
      have hgL : GInv E (log ++ [.started id p]) s := h.g.append (by simp [plain])
      have hrun : Running E (log ++ [.started id p]) (⟨id, p, [], [], .done, a, b⟩ : V P) := by
        refine ⟨by simp, ?_, by simp⟩
        intro o ho
        rcases List.mem_append.mp ho with ho | ho
        · exact hnone o ho id hf
        · simp only [List.mem_singleton] at ho; subst ho; rfl
      have key : ∀ r : St P × V P × List (Obs P), Worked E (log ++ [.started id p]) s ⟨id, p, [], [], .done, a, b⟩ r →
          Stepped E log ({ r.1 with vals := r.2.1 :: r.1.vals }, .started id p :: r.2.2) := by
        intro r hw
        refine ⟨⟨?_, ?_⟩, ?_⟩
        · have := hw.inv
          rw [List.append_assoc] at this
          exact this.congr rfl rfl rfl
        · intro x hx
          have e : log ++ (Obs.started id p :: r.2.2) = log ++ [.started id p] ++ r.2.2 := by simp
          show VInv E (log ++ (Obs.started id p :: r.2.2)) x
          rw [e]
          rcases List.mem_cons.mp hx with hx | hx
          · subst hx
            refine ⟨?_, ?_⟩
            · rw [hw.id, hw.pkt]; simp
            · intro n k hp
              have := hw.run n k hp
              rw [hw.pkt]
              exact this
          · have hx : x ∈ r.1.vals := hx
            rw [hw.vals] at hx
            refine ((h.v x hx).append (b := [.started id p]) (by simp [isOutcome])).append ?_
            intro o ho
            exact (hw.obs o ho).2 _ (find_none hf x hx)
        · intro pre i q post he
          have he : Obs.started id p :: r.2.2 = pre ++ .success i q :: post := he
          cases pre with
          | nil => simp at he
          | cons x pre =>
            simp only [List.cons_append, List.cons.injEq] at he
            obtain ⟨he1, he2⟩ := he
            obtain ⟨rfl, rfl, rfl, h4⟩ := hw.succ pre i q post he2
            subst he1
            exact ⟨by simp, h4⟩
      split
      · exact key _ (worked_failed _ hgL rfl rfl rfl rfl)
      · exact key _ (worked_failed _ hgL rfl rfl rfl rfl)
      · rename_i hp
        exact key _ (worked_succeeded hgL rfl rfl rfl rfl (.inl hp))
      · rename_i n hp
        exact key _ (go_worked _ _ _ _ hgL hrun hp)
  | data id c =>
    simp only [step]
    split
    · rename_i v hf
      obtain ⟨hm, hid⟩ := find_some hf
      split
      · rename_i n k hph
        split
        · rename_i hmc
          simp only [Bool.and_eq_true] at hmc
          split
          · obtain ⟨hr, hw⟩ := (h.v v hm).run n k (.inl hph)
            refine stepped_worked (pre0 := [.received c]) (h.v v hm).started (by simp [isOutcome]) h.v
              ((go_worked _ _ _ (.cert c) h.g.insertUnverified (hr.append (by simp [isOutcome]))
                ⟨by simp, n, hw, hmc.1, List.isPrefixOf_iff_prefix.mp hmc.2⟩).of_inner rfl rfl rfl rfl)
          · exact stepped_one (h.g.append (by simp [plain])) h.v (fun _ => rfl)
        · exact stepped_nil h
      · exact stepped_nil h
    · exact stepped_nil h
  | badData id =>
    simp only [step]
    split
    · rename_i v hf
      obtain ⟨hm, hid⟩ := find_some hf
      split
      · exact stepped_worked (pre0 := []) (h.v v hm).started (by simp) h.v
          (worked_failed _ (by simpa using h.g) rfl rfl rfl rfl)
      · exact stepped_nil h
    · exact stepped_nil h
  | nack id =>
    simp only [step]
    split
    · rename_i v hf
      obtain ⟨hm, hid⟩ := find_some hf
      split
      · rename_i n k hph
        obtain ⟨hr, hw⟩ := (h.v v hm).run n (k + 1) (.inl hph)
        refine stepped_worked (pre0 := []) (h.v v hm).started (by simp) h.v (v := v) ⟨by simpa using h.g, rfl, rfl, rfl, rfl, by simp, ?_, by simp⟩
        intro n' k' hp
        simp only [reduceCtorEq, Phase.backoff.injEq, false_or] at hp
        obtain ⟨rfl, _⟩ := hp
        simp only [List.append_nil]
        exact ⟨⟨hr.started, hr.no, hr.chain⟩, hw⟩
      · exact stepped_worked (pre0 := []) (h.v v hm).started (by simp) h.v
          (worked_failed _ (by simpa using h.g) rfl rfl rfl rfl)
      · exact stepped_nil h
    · exact stepped_nil h
  | timeout id =>
    simp only [step]
    split
    · rename_i v hf
      obtain ⟨hm, hid⟩ := find_some hf
      split
      · rename_i n k hph
        obtain ⟨hr, hw⟩ := (h.v v hm).run n (k + 1) (.inl hph)
        exact stepped_worked (pre0 := []) (h.v v hm).started (by simp) h.v
          (go_worked _ _ _ _ (by simpa using h.g) (by simpa using hr) hw)
      · exact stepped_worked (pre0 := []) (h.v v hm).started (by simp) h.v
          (worked_failed _ (by simpa using h.g) rfl rfl rfl rfl)
      · exact stepped_nil h
    · exact stepped_nil h
  | retry id =>
    simp only [step]
    split
    · rename_i v hf
      obtain ⟨hm, hid⟩ := find_some hf
      split
      · rename_i n k hph
        obtain ⟨hr, hw⟩ := (h.v v hm).run n k (.inr hph)
        exact stepped_worked (pre0 := []) (h.v v hm).started (by simp) h.v
          (go_worked _ _ _ _ (by simpa using h.g) (by simpa using hr) hw)
      · exact stepped_nil h
    · exact stepped_nil h
  | loadAnchor c =>
    simp only [step]
    have hg : GInv E (log ++ [.loaded c]) s := h.g.append (by simp [plain])
    refine stepped_one ⟨hg.clk, hg.clk', ?_, hg.ver, hg.unv⟩ h.v (fun _ => rfl)
    intro e he
    rcases mem_insertByName he with rfl | he
    · exact ⟨log, [], by simp, by simp⟩
    · exact hg.anc e he
  | resetAnchors =>
    simp only [step]
    refine stepped_one ⟨?_, ?_, by simp, ?_, ?_⟩ h.v (fun _ => rfl)
    · rw [clockOf_append]; exact h.g.clk
    · rw [clockOf_append]; exact h.g.clk'
    · intro e he
      obtain ⟨x, y, rfl, h1, h2, h3⟩ := h.g.ver e he
      exact ⟨x, y ++ [.anchorsReset], by simp, h1, by simp [h2], h3⟩
    · intro e he; exact (h.g.unv e he).append _
  | cacheVerified c =>
    simp only [step]
    split
    · refine stepped_one ?_ h.v (fun _ => rfl)
      have := (h.g.append (b := [.userCached c]) (by simp [plain]))
      have := GInv.insertVerified (a := log ++ [.userCached c]) (b := []) (c := c) (s := s) (by simpa using this) (by simp)
        (.inl ⟨log, rfl⟩)
      simpa using this
    · exact stepped_nil h
  | resetVerified =>
    simp only [step]
    refine stepped_one ⟨?_, ?_, ?_, by simp, ?_⟩ h.v (fun _ => rfl)
    · rw [clockOf_append]; exact h.g.clk
    · rw [clockOf_append]; exact h.g.clk'
    · intro e he
      obtain ⟨x, y, h1, h2⟩ := h.g.anc e he
      exact ⟨x, y ++ [.verifiedReset], by simp [h1], by simp [h2]⟩
    · intro e he; exact (h.g.unv e he).append _
  | setClock t =>
    simp only [step]
    refine stepped_one ⟨?_, ?_, ?_, ?_, ?_⟩ h.v (fun _ => rfl)
    · rw [clockOf_append]; rfl
    · rw [clockOf_append]; rfl
    · intro e he
      obtain ⟨x, y, h1, h2⟩ := h.g.anc e he
      exact ⟨x, y ++ [.clock t], by simp [h1], by simp [h2]⟩
    · intro e he
      obtain ⟨x, y, rfl, h1, h2, h3⟩ := h.g.ver e he
      exact ⟨x, y ++ [.clock t], by simp, h1, by simp [h2], h3⟩
    · intro e he; exact (h.g.unv e he).append _
  | setMaxDepth d =>
    simp only [step]
    exact stepped_nil ⟨h.g.congr rfl rfl rfl, h.v⟩

end Ndn.Validator
