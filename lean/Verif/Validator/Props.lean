import Verif.Validator.CompleteLemmas
import Verif.Fetch.Lemmas
/-
C51: a packet is accepted only with a chain of trust. C52: a validation has one outcome and asks for a bounded
number of certificates.
-/
namespace Ndn.Validator
open Ndn.Name Ndn.Cert

variable {P : Type}

/-! ### A concrete world for the examples -/

/-- Packets are numbers. Packet 1 is to be signed with the certificate under `/1`, which (body 1) is to be signed with
a certificate under `/2`; packet 2 is exempt; packet 3 is to have a digest; packet 4 asks for a certificate under `/2`. -/
def demoName (k : Nat) : List Comp := [⟨8, [UInt8.ofNat k]⟩]
def demoCert (k : Nat) : Crt := ⟨demoName k ++ demoName 9, 1000, k⟩
def demo : Env Nat where
  policy p := if p = 1 then .request (demoName 1) else if p = 2 then .bypass else if p = 3 then .request [] else .request (demoName 2)
  policyCert c := if c.body = 1 then .request (demoName 2) else .fail
  verify p c := (p = 1 && c.body = 1) || (p = 4 && c.body = 2)
  digestOk p := p = 3
  verifyCert c r := c.body = 1 && r.body = 2
  hasPeriod c := c.body ≠ 7
  notBefore _ := 0
  isMatch _ _ := true
  digestName := []
  offline := false

/-- The chain is fetched and the packet accepted. -/
def demoOps : List (Op Nat) := [.loadAnchor (demoCert 2), .validate 5 1 false false, .nack 5, .retry 5, .timeout 5, .data 5 (demoCert 1)]

theorem demo_success : Obs.success 5 1 ∈ (run demo (start Nat 10) demoOps).2 := by
  have : (run demo (start Nat 10) demoOps).2.getLast? = some (.success 5 1) := by rfl
  exact List.mem_of_getLast? this

/-! ### C51 -/

/-- C51: when a packet is reported valid, it was given for validation, and the policy exempts it, or it needs only a
digest and has it, or a certificate the policy asks for verifies it and is trusted: a current anchor, or cached by
the user, or signed (by the chain, up to one of these) with each certificate asked for by the policy, verified with
the next, and within its validity period during the validation that verified it. -/
theorem C51_chain (E : Env P) (t : Int) (ops : List (Op P)) (pre post : List (Obs P)) (id : Nat) (p : P)
    (h : (run E (start P t) ops).2 = pre ++ .success id p :: post) : Obs.started id p ∈ pre ∧ Acceptable E pre p := by
  obtain ⟨h1, h2, h3⟩ := start_inv (E := E) t (fun _ => False) (depths_ge ops)
  exact (run_inv ops (fun op ho => ⟨fun _ _ _ _ _ hq => hq.elim, depths_ok ops op ho⟩) _ h1 h2 h3).2.2.1 pre id p post h

example : ∃ pre post, (run demo (start Nat 10) demoOps).2 = pre ++ .success 5 1 :: post :=
  List.append_of_mem demo_success

/-- C51: what is accepted with a key is verified by a certificate the policy asked for. -/
theorem C51_signature (E : Env P) (t : Int) (ops : List (Op P)) (id : Nat) (p : P)
    (h : Obs.success id p ∈ (run E (start P t) ops).2) (h1 : E.policy p ≠ .bypass) (h2 : E.digestOk p = false) :
    ∃ n r, E.policy p = .request n ∧ E.isMatch n r = true ∧ n <+: r.name ∧ E.verify p r = true := by
  obtain ⟨pre, post, h⟩ := List.append_of_mem h
  rcases (C51_chain E t ops pre post id p h).2 with h3 | ⟨h3, _⟩ | ⟨n, r, h3, h4, h5, h6, _⟩
  · exact absurd h3 h1
  · rw [h2] at h3; cases h3
  · exact ⟨n, r, h3, h4, h5, h6⟩

example : Obs.success 5 1 ∈ (run demo (start Nat 10) demoOps).2 ∧ demo.policy 1 ≠ .bypass ∧ demo.digestOk 1 = false :=
  ⟨demo_success, by decide, by decide⟩

theorem good_source {E : Env P} {log : List (Obs P)} {c : Crt} (h : Good E log c) :
    ∃ r, Obs.loaded r ∈ log ∨ Obs.userCached r ∈ log := by
  induction h with
  | anchor h => obtain ⟨a, b, rfl, _⟩ := h; exact ⟨_, .inl (by simp; exact .inr (.inl rfl))⟩
  | user h => exact ⟨_, .inr (by simp; exact .inr (.inl rfl))⟩
  | fresh _ _ ih => exact ih
  | kept _ _ _ ih =>
    obtain ⟨r, h | h⟩ := ih
    · exact ⟨r, .inl (List.mem_append_left _ h)⟩
    · exact ⟨r, .inr (List.mem_append_left _ h)⟩

/-- C51: without an anchor and without certificates cached by the user nothing that needs a key is accepted. -/
theorem C51_no_anchor (E : Env P) (t : Int) (ops : List (Op P)) (id : Nat) (p : P)
    (ha : ∀ c, Obs.loaded c ∉ (run E (start P t) ops).2) (hu : ∀ c, Obs.userCached c ∉ (run E (start P t) ops).2)
    (h1 : E.policy p ≠ .bypass) (h2 : E.digestOk p = false) : Obs.success id p ∉ (run E (start P t) ops).2 := by
  intro h
  obtain ⟨pre, post, h⟩ := List.append_of_mem h
  rcases (C51_chain E t ops pre post id p h).2 with h3 | ⟨h3, _⟩ | ⟨n, r, _, _, _, _, hg⟩
  · exact absurd h3 h1
  · rw [h2] at h3; cases h3
  · obtain ⟨r, h3 | h3⟩ := good_source hg
    · exact ha r (by rw [h]; simp [h3])
    · exact hu r (by rw [h]; simp [h3])

example : (∀ c, Obs.loaded c ∉ (run demo (start Nat 10) [.validate 5 1 false false, .data 5 (demoCert 1)]).2) ∧
    (∀ c, Obs.userCached c ∉ (run demo (start Nat 10) [.validate 5 1 false false, .data 5 (demoCert 1)]).2) := by
  have : (run demo (start Nat 10) [.validate 5 1 false false, .data 5 (demoCert 1)]).2 =
    [.clock 10, .started 5 1, .interest 5 (demoName 1), .received (demoCert 1), .interest 5 (demoName 2)] := by rfl
  rw [this]
  constructor <;> intro c <;> simp

/-- C51, the other direction: with an anchor `root` loaded, a packet whose chain of fewer than 25 certificates the network
supplies, all within their validity and properly signed, is accepted. The names asked for are distinct, and none of
them but the last is satisfied by the anchor or by an earlier certificate of the chain. -/
theorem C51_complete (E : Env P) (t : Int) (root : Crt) (id : Nat) (p : P) (ls : List (List Comp × Crt)) (nf : List Comp)
    (hoff : E.offline = false) (hpol : Follows E (E.policy p) ls nf) (hroot : Satisfies E nf root) (hlen : ls.length < 25)
    (hnd : (ls.map Prod.fst ++ [nf]).Nodup) (hdig : ∀ m ∈ ls.map Prod.fst ++ [nf], m ≠ E.digestName)
    (hval : ∀ l ∈ ls, E.hasPeriod l.2 = true ∧ E.notBefore l.2 ≤ t ∧ t ≤ l.2.notAfter ∧ ¬ Satisfies E l.1 root)
    (hun : ∀ a l b, ls = a ++ l :: b → ∀ x ∈ a, ¬ Satisfies E l.1 x.2)
    (hsig : SignedBy E root (ls.map Prod.snd)) (hver : E.verify p ((ls.map Prod.snd).head?.getD root) = true) :
    Obs.success id p ∈ (run E (start P t) (.loadAnchor root :: .validate id p false false :: ls.map (fun l => .data id l.2))).2 := by
  have hmid : Mid E t root [] { St.init P t with anchors := [⟨root, 0⟩] } :=
    ⟨rfl, rfl, rfl, rfl, by intro e he; cases he⟩
  cases ls with
  | nil =>
    simp only [Follows] at hpol
    simp only [run, step, start, List.map_nil, St.init, find, List.find?_nil, insertByName, hpol]
    have := go_root (E := E) (v := ⟨id, p, [], [], .done, false, false⟩) (n := nf) (cs := []) hmid (by simp) (hdig nf (by simp))
      (by simp) hroot rfl hsig (by simpa using hver) rfl
    simp only [St.init] at this
    simp only [bound]
    rw [this]
    simp
  | cons l ls =>
    obtain ⟨n, c⟩ := l
    obtain ⟨f1, f2, f3, f4⟩ := hpol
    rw [run, run]
    simp only [step, start, St.init, find, List.find?_nil, insertByName, f1]
    obtain ⟨g1, g2, g3⟩ := go_net (E := E) (v := ⟨id, p, [], [], .done, false, false⟩) (n := n) hmid (by simp) (hdig n (by simp)) (by simp)
      (hval (n, c) (by simp)).2.2.2 (by simp) hoff (3 * (25 - 0) + 2)
    have hsv := (go_same (E := E) (log := []) (3 * (25 - 0) + 2 + 2) { St.init P t with anchors := [⟨root, 0⟩] }
      ⟨id, p, [], [], .done, false, false⟩ (.request n)).1
    simp only [St.init] at g1 g2 g3 hsv
    refine chain_fetched hoff hroot ls [] _ _ n c ?_ ?_ f2 f3 f4 (by simpa using hlen) (by simpa using hnd) (by simpa using hdig)
      hval hun hsig hver
    · exact ⟨g3.depth, g3.anchors, g3.verified, g3.now, g3.unverified⟩
    · simp only [bound, List.length_nil, List.map_nil, List.reverse_nil]
      rw [hsv, g2]

example : Follows demo (demo.policy 1) [(demoName 1, demoCert 1)] (demoName 2) ∧ Satisfies demo (demoName 2) (demoCert 2) ∧
    SignedBy demo (demoCert 2) [demoCert 1] ∧ demo.verify 1 (demoCert 1) = true ∧ ¬ Satisfies demo (demoName 1) (demoCert 2) := by
  refine ⟨⟨by decide, rfl, ⟨demoName 9, rfl⟩, by simp [Follows]; decide⟩, ⟨rfl, ⟨demoName 9, rfl⟩⟩, by simp [SignedBy]; decide, by decide, ?_⟩
  intro h
  have : (demoName 1).isPrefixOf (demoCert 2).name = true := List.isPrefixOf_iff_prefix.mpr h.2
  revert this; decide

/-- A user would also expect the certificate that verifies the packet to be valid when the packet is accepted. -/
def C51_current_claim : Prop :=
  ∀ (E : Env Nat) (t : Int) (ops : List (Op Nat)) (pre post : List (Obs Nat)) (id : Nat) (p : Nat),
    (run E (start Nat t) ops).2 = pre ++ .success id p :: post → E.policy p ≠ .bypass → E.digestOk p = false →
    ∃ r, E.verify p r = true ∧ E.notBefore r ≤ clockOf pre ∧ clockOf pre ≤ r.notAfter

/-- It may have expired: anchors are used whatever their validity period. -/
theorem C51_current_counterexample : ¬ C51_current_claim := by
  intro h
  have e : (run { demo with verify := fun p c => p = 4 && c = demoCert 2 } (start Nat 5000) [.loadAnchor (demoCert 2), .validate 0 4 false false]).2 =
      [.clock 5000, .loaded (demoCert 2), .started 0 4] ++ .success 0 4 :: [] := by rfl
  obtain ⟨r, h1, _, h3⟩ := h _ _ _ _ _ _ _ e (by decide) (by decide)
  simp only [Bool.and_eq_true, decide_eq_true_eq] at h1
  rw [h1.2] at h3
  revert h3; decide


/-- Packet 1 needs `/1`, then `/2`, then the anchor under `/3`. -/
def demo3 : Env Nat := { demo with
  policyCert := fun c => if c.body = 1 then .request (demoName 2) else if c.body = 2 then .request (demoName 3) else .fail
  verifyCert := fun c r => decide (c = demoCert 1 ∧ r.body = 2) || decide (c.body = 2 ∧ r.body = 3)
  verify := fun p c => p = 1 && c = demoCert 1 }

/-- A fetched certificate may also have expired when the packet is accepted: its validity is checked when it
arrives, not when the chain is complete. -/
theorem C51_current_fetched_counterexample : ∃ (ops : List (Op Nat)) (pre post : List (Obs Nat)),
    (run demo3 (start Nat 10) ops).2 = pre ++ .success 5 1 :: post ∧ Obs.loaded (demoCert 1) ∉ pre ∧
    ∀ r, demo3.verify 1 r = true → ¬ clockOf pre ≤ r.notAfter := by
  refine ⟨[.loadAnchor (demoCert 3), .validate 5 1 false false, .data 5 (demoCert 1), .setClock 2000,
      .data 5 ⟨demoName 2, 3000, 2⟩],
    [.clock 10, .loaded (demoCert 3), .started 5 1, .interest 5 (demoName 1), .received (demoCert 1), .interest 5 (demoName 2),
      .clock 2000, .received ⟨demoName 2, 3000, 2⟩], [], by rfl, by simp [demoCert], ?_⟩
  intro r hr
  simp only [demo3, Bool.and_eq_true, decide_eq_true_eq] at hr
  rw [hr.2]
  decide

theorem good_valid {E : Env P} {log : List (Obs P)} {c : Crt} (h : Good E log c) {t : Int}
    (hc : ∀ a b, log = a ++ b → a ≠ [] → clockOf a = t)
    (ht : ∀ r, (Obs.loaded r ∈ log ∨ Obs.userCached r ∈ log) → E.notBefore r ≤ t ∧ t ≤ r.notAfter) :
    E.notBefore c ≤ t ∧ t ≤ c.notAfter := by
  have hl : ∀ {log : List (Obs P)} {c r : Crt}, Link E log c r → (∀ a b, log = a ++ b → a ≠ [] → clockOf a = t) →
      E.notBefore c ≤ t ∧ t ≤ c.notAfter := by
    intro log c r h hc
    obtain ⟨id, p, a, b, rfl, h1, _, h2⟩ := h.valid
    rw [hc a b rfl (fun he => by rw [he] at h1; cases h1)] at h2
    exact h2
  cases h with
  | anchor h => obtain ⟨a, b, rfl, _⟩ := h; exact ht _ (.inl (by simp))
  | user h => exact ht _ (.inr (by simp))
  | fresh h _ => exact hl h hc
  | kept h _ _ =>
    rename_i a b _ _ _
    exact hl h (fun x y he => hc x (y ++ b) (by rw [he]; simp))

theorem clockOf_const {t : Int} : ∀ (log : List (Obs P)), (∀ t', Obs.clock t' ∈ log → t' = t) → log.foldl tick t = t := by
  intro log
  induction log with
  | nil => intro _; rfl
  | cons o log ih =>
    intro h
    have : tick t o = t := by
      cases o with
      | clock t' => exact h t' (by simp)
      | _ => rfl
    rw [List.foldl_cons, this]
    exact ih (fun t' ht => h t' (by simp [ht]))

/-- What holds of `C51_current_claim`: while the clock stands still and if anchors and user-supplied certificates are
valid then, the certificate that verifies the packet is valid. -/
theorem C51_current_partial (E : Env P) (t : Int) (ops : List (Op P)) (pre post : List (Obs P)) (id : Nat) (p : P)
    (h : (run E (start P t) ops).2 = pre ++ .success id p :: post) (h1 : E.policy p ≠ .bypass) (h2 : E.digestOk p = false)
    (hc : ∀ t', Obs.clock t' ∈ pre → t' = t)
    (ht : ∀ r, (Obs.loaded r ∈ pre ∨ Obs.userCached r ∈ pre) → E.notBefore r ≤ t ∧ t ≤ r.notAfter) :
    ∃ r, E.verify p r = true ∧ E.notBefore r ≤ clockOf pre ∧ clockOf pre ≤ r.notAfter := by
  have hst : ∀ (ops : List (Op P)) (x : St P × List (Obs P)), ∃ l, (run E x ops).2 = x.2 ++ l := by
    intro ops
    induction ops with
    | nil => intro x; exact ⟨[], by simp [run]⟩
    | cons op ops ih =>
      intro x
      obtain ⟨l, hl⟩ := ih ((step E x.1 op).1, x.2 ++ (step E x.1 op).2)
      exact ⟨(step E x.1 op).2 ++ l, by rw [run]; rw [hl]; simp⟩
  have hpre : ∃ l, pre = .clock t :: l := by
    obtain ⟨l, hl⟩ := hst ops (start P t)
    rw [h] at hl
    cases pre with
    | nil => simp [start] at hl
    | cons o pre =>
      simp only [start, List.cons_append, List.nil_append, List.cons.injEq] at hl
      exact ⟨pre, by rw [hl.1]⟩
  obtain ⟨l, rfl⟩ := hpre
  have hk : ∀ a b, Obs.clock t :: l = a ++ b → a ≠ [] → clockOf a = t := by
    intro a b he hne
    cases a with
    | nil => exact absurd rfl hne
    | cons o a =>
      simp only [List.cons_append, List.cons.injEq] at he
      obtain ⟨rfl, he⟩ := he
      show (a.foldl tick t) = t
      exact clockOf_const a (fun t' hm => hc t' (by rw [he]; simp [hm]))
  rcases (C51_chain E t ops _ post id p h).2 with h3 | ⟨h3, _⟩ | ⟨n, r, _, _, _, h6, hg⟩
  · exact absurd h3 h1
  · rw [h2] at h3; cases h3
  · refine ⟨r, h6, ?_⟩
    rw [hk _ [] (by simp) (by simp)]
    exact good_valid hg hk ht

example : (run demo (start Nat 10) [.loadAnchor (demoCert 2), .validate 0 4 false false]).2 =
    [.clock 10, .loaded (demoCert 2), .started 0 4] ++ .success 0 4 :: [] ∧ demo.notBefore (demoCert 2) ≤ 10 ∧ 10 ≤ (demoCert 2).notAfter :=
  ⟨by rfl, by decide, by decide⟩

/-- A user would expect that after the anchors are reset, and before others are loaded, nothing that needs a key is accepted. -/
def C51_reset_claim : Prop :=
  ∀ (E : Env Nat) (t : Int) (ops : List (Op Nat)) (a b post : List (Obs Nat)) (id : Nat) (p : Nat),
    (run E (start Nat t) ops).2 = a ++ .anchorsReset :: (b ++ .success id p :: post) →
    (∀ c, Obs.loaded c ∉ b) → (∀ c, Obs.userCached c ∉ a ++ b) → E.policy p = .bypass ∨ E.digestOk p = true

/-- Certificates verified before with the old anchors are still trusted. -/
theorem C51_reset_counterexample : ¬ C51_reset_claim := by
  intro h
  have e : (run demo (start Nat 10) [.loadAnchor (demoCert 2), .validate 5 1 false false, .data 5 (demoCert 1), .resetAnchors,
      .validate 6 1 false false]).2 = [.clock 10, .loaded (demoCert 2), .started 5 1, .interest 5 (demoName 1),
        .received (demoCert 1), .success 5 1] ++ .anchorsReset :: ([.started 6 1] ++ .success 6 1 :: []) := by rfl
  have := h demo 10 _ _ _ _ 6 1 e (by simp) (by simp)
  revert this; decide

theorem split_reset {a' b' x d : List (Obs P)} {o : Obs P} (h : a' ++ b' = x ++ o :: d) (hb : o ∉ b') :
    ∃ d1, a' = x ++ o :: d1 ∧ d = d1 ++ b' := by
  rcases List.append_eq_append_iff.mp h with ⟨as, h1, h2⟩ | ⟨bs, h1, h2⟩
  · exact absurd (by rw [h2]; simp) hb
  · cases bs with
    | nil =>
      simp only [List.nil_append] at h2
      exact absurd (by rw [← h2]; simp) hb
    | cons y bs =>
      simp only [List.cons_append, List.cons.injEq] at h2
      obtain ⟨rfl, h2⟩ := h2
      exact ⟨bs, h1, h2⟩

theorem last_mem {x y d : List (Obs P)} {o o' : Obs P} (h : x ++ [o] = y ++ o' :: d) (hne : o ≠ o') : o ∈ d := by
  rcases List.append_eq_append_iff.mp h with ⟨as, h1, h2⟩ | ⟨bs, h1, h2⟩
  · cases as with
    | nil => simp at h2; exact absurd h2.1 hne
    | cons z as => simp at h2
  · cases bs with
    | nil => simp at h2; exact absurd h2.1.symm hne
    | cons z bs =>
      simp only [List.cons_append, List.cons.injEq] at h2
      rw [h2.2]; simp

theorem not_good_reset {E : Env P} {log : List (Obs P)} {c : Crt} (h : Good E log c) : ∀ a b d,
    log = a ++ .anchorsReset :: (b ++ .verifiedReset :: d) → (∀ c, Obs.loaded c ∉ b ++ d) → (∀ c, Obs.userCached c ∉ d) → False := by
  induction h with
  | @anchor log c h =>
    intro a b d he hl hu
    obtain ⟨x, y, rfl, hy⟩ := h
    have he' : (x ++ [Obs.loaded c]) ++ y = a ++ .anchorsReset :: (b ++ .verifiedReset :: d) := by rw [← he]; simp
    obtain ⟨d1, h1, h2⟩ := split_reset he' hy
    have : Obs.loaded c ∈ b ++ .verifiedReset :: d := by
      rw [h2]; exact List.mem_append_left _ (last_mem h1 (by simp))
    refine hl c ?_
    simp only [List.mem_append, List.mem_cons, reduceCtorEq, false_or] at this ⊢
    exact this
  | @user a' b' c hk =>
    intro a b d he hl hu
    have he' : (a' ++ [Obs.userCached c]) ++ b' = (a ++ .anchorsReset :: b) ++ .verifiedReset :: d := by rw [he]; simp
    obtain ⟨d1, h1, h2⟩ := split_reset he' hk.reset
    exact hu c (by rw [h2]; exact List.mem_append_left _ (last_mem h1 (by simp)))
  | fresh _ _ ih => exact ih
  | @kept a' b' c r hl' hg hk ih =>
    intro a b d he hl hu
    have he' : a' ++ b' = (a ++ .anchorsReset :: b) ++ .verifiedReset :: d := by rw [he]; simp
    obtain ⟨d1, h1, h2⟩ := split_reset he' hk.reset
    refine ih a b d1 (by rw [h1]; simp) ?_ ?_
    · intro x hx
      refine hl x ?_
      rw [h2]
      simp only [List.mem_append] at hx ⊢
      rcases hx with hx | hx
      · exact .inl hx
      · exact .inr (.inl hx)
    · intro x hx
      exact hu x (by rw [h2]; simp [hx])

/-- What holds of `C51_reset_claim`: after the anchors and then also the cache of verified certificates are reset, and before
anything is loaded or cached by the user, nothing that needs a key is accepted. -/
theorem C51_reset_partial (E : Env P) (t : Int) (ops : List (Op P)) (a b d post : List (Obs P)) (id : Nat) (p : P)
    (h : (run E (start P t) ops).2 = a ++ .anchorsReset :: (b ++ .verifiedReset :: d) ++ .success id p :: post)
    (hl : ∀ c, Obs.loaded c ∉ b ++ d) (hu : ∀ c, Obs.userCached c ∉ d) : E.policy p = .bypass ∨ E.digestOk p = true := by
  rcases (C51_chain E t ops _ post id p h).2 with h3 | ⟨h3, _⟩ | ⟨n, r, _, _, _, h6, hg⟩
  · exact .inl h3
  · exact .inr h3
  · exact (not_good_reset hg a b d rfl hl hu).elim

example : (run demo (start Nat 10) [.resetAnchors, .resetVerified, .validate 6 2 false false]).2 =
    [.clock 10] ++ .anchorsReset :: ([] ++ .verifiedReset :: [.started 6 2]) ++ .success 6 2 :: [] := by rfl

/-! ### C52 -/

/-- The inputs in which validation `id` has callbacks that do not throw, and the depth never exceeds `D`. -/
def Good52 (D id : Nat) (ops : List (Op P)) : Prop :=
  (∀ p a b, Op.validate id p a b ∈ ops → a = false ∧ b = false) ∧ ∀ op ∈ ops, DepthLe D op

theorem good52_ok {D id : Nat} {ops : List (Op P)} (h : Good52 D id ops) : ∀ op ∈ ops, OpOk (fun i => i = id) D op := by
  intro op ho
  refine ⟨?_, h.2 op ho⟩
  rintro i p a b rfl rfl
  exact h.1 p a b ho

/-- C52: a validation whose callbacks do not throw never has more than one outcome; it has one or it waits for the network. -/
theorem C52_one_outcome (E : Env P) (t : Int) (D id : Nat) (hD : 25 ≤ D) (ops : List (Op P)) (h : Good52 D id ops) :
    ((run E (start P t) ops).2.countP (isOutcome id)) ≤ 1 ∧
    ∀ p, Obs.started id p ∈ (run E (start P t) ops).2 →
      ((run E (start P t) ops).2.countP (isOutcome id) = 1 ↔ waiting (run E (start P t) ops).1 id = false) := by
  obtain ⟨h1, h2, h3⟩ := start_inv (E := E) t (fun i => i = id) hD
  obtain ⟨_, hc, _⟩ := run_inv ops (good52_ok h) _ h1 h2 h3
  unfold waiting
  cases hf : find (run E (start P t) ops).1.vals id with
  | none =>
    have hno := hc.none id hf
    refine ⟨?_, ?_⟩
    · have := outs_zero hno
      unfold outs at this
      omega
    · intro p hp
      have := hno _ hp
      simp [mentions] at this
  | some v =>
    obtain ⟨hm, hid⟩ := find_some hf
    have := (hc.val v hm).out hid
    rw [hid] at this
    unfold outs at this
    by_cases hp : v.phase = .done
    · rw [if_pos hp] at this
      simp [this, hp]
    · rw [if_neg hp] at this
      simp [this, hp]

example : Good52 25 5 demoOps ∧ Obs.started 5 1 ∈ (run demo (start Nat 10) demoOps).2 := by
  refine ⟨⟨by simp [demoOps], by simp [demoOps, DepthLe]⟩, ?_⟩
  exact List.mem_of_getElem? (i := 2) (by rfl)

/-- C52: an outcome is only reported for a packet given for validation, and with the packet itself. -/
theorem C52_outcome_started (E : Env P) (t : Int) (ops : List (Op P)) (id : Nat) :
    (∀ p, Obs.success id p ∈ (run E (start P t) ops).2 → Obs.started id p ∈ (run E (start P t) ops).2) ∧
    (∀ c, Obs.failure id c ∈ (run E (start P t) ops).2 → ∃ p, Obs.started id p ∈ (run E (start P t) ops).2) := by
  refine ⟨?_, ?_⟩
  · intro p h
    obtain ⟨pre, post, h⟩ := List.append_of_mem h
    have := (C51_chain E t ops pre post id p h).1
    rw [h]; simp [this]
  · intro c h
    obtain ⟨h1, h2, h3⟩ := start_inv (E := E) t (fun _ => False) (depths_ge ops)
    obtain ⟨hs, hc, _⟩ := run_inv ops (fun op ho => ⟨fun _ _ _ _ _ hq => hq.elim, depths_ok ops op ho⟩) _ h1 h2 h3
    cases hf : find (run E (start P t) ops).1.vals id with
    | none =>
      have := hc.none id hf _ h
      simp [mentions] at this
    | some v =>
      obtain ⟨hm, hid⟩ := find_some hf
      exact ⟨v.pkt, hid ▸ (hs.v v hm).started⟩

example : Obs.failure 5 Code.policy ∈ (run demo (start Nat 10) [.loadAnchor (demoCert 3), .validate 5 4 false false, .data 5 (demoCert 2)]).2 :=
  List.mem_of_getLast? (by rfl)

/-- C52: a validation asks the network for at most `D` different certificates and sends at most four Interests for each,
where `D` is the greatest maximum depth in force. -/
theorem C52_requests (E : Env P) (t : Int) (D id : Nat) (hD : 25 ≤ D) (ops : List (Op P)) (h : ∀ op ∈ ops, DepthLe D op) :
    (∀ ns : List (List Comp), ns.Nodup → (∀ n ∈ ns, Obs.interest id n ∈ (run E (start P t) ops).2) → ns.length ≤ D) ∧
    (run E (start P t) ops).2.countP (isInterest id) ≤ 4 * D := by
  obtain ⟨h1, h2, h3⟩ := start_inv (E := E) t (fun _ => False) hD
  obtain ⟨_, hc, _⟩ := run_inv ops (fun op ho => ⟨fun _ _ _ _ _ hq => hq.elim, h op ho⟩) _ h1 h2 h3
  cases hf : find (run E (start P t) ops).1.vals id with
  | none =>
    have hno := hc.none id hf
    refine ⟨?_, ?_⟩
    · intro ns _ hall
      cases ns with
      | nil => simp
      | cons n ns =>
        have := hno _ (hall n (by simp))
        simp [mentions] at this
    · have := ints_zero hno
      unfold ints at this
      omega
  | some v =>
    obtain ⟨hm, rfl⟩ := find_some hf
    have hv := hc.val v hm
    refine ⟨?_, ?_⟩
    · intro ns hnd hall
      exact Nat.le_trans (Fetch.length_le_of_nodup_subset hnd (fun n hn => hv.names n (hall n hn))) hv.len
    · have := hv.cnt
      have := hv.len
      unfold ints at *
      omega

example : Obs.interest 5 (demoName 1) ∈ (run demo (start Nat 10) demoOps).2 := List.mem_of_getElem? (i := 3) (by rfl)

/-- C52: a validation sends at most four Interests for the same certificate: it does not go around in circles. -/
theorem C52_no_loop (E : Env P) (t : Int) (id : Nat) (n : List Comp) (ops : List (Op P)) :
    (run E (start P t) ops).2.countP (isInterestFor id n) ≤ 4 := by
  obtain ⟨h1, h2, h3⟩ := start_inv (E := E) t (fun _ => False) (depths_ge ops)
  obtain ⟨_, hc, _⟩ := run_inv ops (fun op ho => ⟨fun _ _ _ _ _ hq => hq.elim, depths_ok ops op ho⟩) _ h1 h2 h3
  cases hf : find (run E (start P t) ops).1.vals id with
  | none =>
    have h1 := ints_zero (hc.none id hf)
    have h2 := intsFor_le id (run E (start P t) ops).2 n
    unfold intsFor at h2
    omega
  | some v =>
    obtain ⟨hm, rfl⟩ := find_some hf
    exact (hc.val v hm).per n

/-- Four Interests for the same name are possible. -/
example : (run demo (start Nat 10) [.validate 5 1 false false, .timeout 5, .timeout 5, .nack 5, .retry 5]).2.countP (isInterestFor 5 (demoName 1)) = 4 := by rfl

/-- What the network or a timer may do instead of delivering the certificate. -/
def silence (id : Nat) (nacked : Bool) : List (Op P) := if nacked then [.nack id, .retry id] else [.timeout id]

/-- C52: each of the first three timeouts or Nacks is followed by another Interest, and the fourth by a failure. -/
theorem C52_retries (E : Env P) (t : Int) (id : Nat) (p : P) (n : List Comp) (hp : E.policy p = .request n) (hd : n ≠ E.digestName)
    (ho : E.offline = false) (b1 b2 b3 b4 : Bool) :
    (run E (start P t) (.validate id p false false :: (silence id b1 ++ silence id b2 ++ silence id b3 ++ silence id b4))).2 =
      [.clock t, .started id p, .interest id n, .interest id n, .interest id n, .interest id n, .failure id .cannotRetrieve] := by
  cases b1 <;> cases b2 <;> cases b3 <;> cases b4 <;>
    simp [silence, run, step, start, St.init, find, hp, bound, go, hd, ho, findTrusted, scan, lowerBound, Cache.findInterest,
      Cache.refresh, Cache.init, back, put, failed]

example : demo.policy 1 = .request (demoName 1) ∧ demoName 1 ≠ demo.digestName ∧ demo.offline = false := by decide

/-- C52: a validation that waits can be answered: by a timeout or when its timer fires. -/
theorem C52_answerable (E : Env P) (s : St P) (id : Nat) (h : waiting s id = true) : ∃ op, answers E s id op = true := by
  unfold waiting at h
  split at h
  · rename_i v hf
    obtain ⟨a1, a2, a3, a4, ph, a6, a7⟩ := v
    cases ph with
    | done => simp at h
    | fetching n k => exact ⟨.timeout id, by simp [answers, hf]⟩
    | backoff n k => exact ⟨.retry id, by simp [answers, hf]⟩
  · cases h

example : waiting (run demo (start Nat 10) [.validate 5 1 false false]).1 5 = true := by rfl

/-- C52: after at most `8 * D` answers to its Interests and timers, whatever they are and whatever happens between
them, a validation has an outcome. -/
theorem C52_terminates (E : Env P) (t : Int) (D id : Nat) (hD : 25 ≤ D) (ops : List (Op P)) (h : Good52 D id ops) (p : P)
    (hs : Obs.started id p ∈ (run E (start P t) ops).2) (ha : 8 * D ≤ answered E id (St.init P t) ops) :
    (run E (start P t) ops).2.countP (isOutcome id) = 1 := by
  obtain ⟨h1, h2, h3⟩ := start_inv (E := E) t (fun i => i = id) hD
  obtain ⟨_, _, _, hp, _⟩ := run_inv ops (good52_ok h) _ h1 h2 h3
  rw [((C52_one_outcome E t D id hD ops h).2 p hs)]
  have := hp id
  have e1 : left' D (start P t).1 id = 8 * D := rfl
  rw [e1] at this
  have e2 : answered E id (start P t).1 ops = answered E id (St.init P t) ops := rfl
  rw [e2] at this
  cases hw : waiting (run E (start P t) ops).1 id with
  | false => rfl
  | true =>
    exfalso
    unfold waiting at hw
    unfold left' at this
    split at hw
    · rename_i v hf
      rw [hf] at this
      simp only [ne_eq, decide_not, Bool.not_eq_eq_eq_not, Bool.not_true, decide_eq_false_iff_not] at hw
      have hpos : 0 < todo D v := by
        unfold todo
        split
        · omega
        · omega
        · exact absurd (by assumption) hw
      simp only at this
      omega
    · cases hw

/-- The number of answers to a validation is bounded in any case. -/
theorem C52_answers_bounded (E : Env P) (t : Int) (D id : Nat) (hD : 25 ≤ D) (ops : List (Op P)) (h : ∀ op ∈ ops, DepthLe D op) :
    answered E id (St.init P t) ops ≤ 8 * D := by
  obtain ⟨h1, h2, h3⟩ := start_inv (E := E) t (fun _ => False) hD
  obtain ⟨_, _, _, hp, _⟩ := run_inv ops (fun op ho => ⟨fun _ _ _ _ _ hq => hq.elim, h op ho⟩) _ h1 h2 h3
  have := hp id
  have e1 : left' D (start P t).1 id = 8 * D := rfl
  rw [e1] at this
  have e2 : answered E id (start P t).1 ops = answered E id (St.init P t) ops := rfl
  omega

example : answered demo 5 (St.init Nat 10) demoOps = 4 := by rfl

/-- Exactly one outcome, whatever the callbacks do. -/
def C52_throwing_claim : Prop :=
  ∀ (E : Env Nat) (t : Int) (ops : List (Op Nat)) (id : Nat), (run E (start Nat t) ops).2.countP (isOutcome id) ≤ 1

/-- A success callback that throws is followed by a call of the failure callback. -/
theorem C52_throwing_counterexample : ¬ C52_throwing_claim := by
  intro h
  have := h demo 10 [.validate 0 2 true false] 0
  revert this; decide

/-- Nothing the network sends makes an exception leave the validator. -/
def C52_exception_claim : Prop :=
  ∀ (E : Env Nat) (t : Int) (ops : List (Op Nat)) (i : Nat), (∀ op ∈ ops, Quiet op) → Obs.threw i ∉ (run E (start Nat t) ops).2

/-- A certificate without a validity period does: it can be sent by anyone. -/
theorem C52_exception_counterexample : ¬ C52_exception_claim := by
  intro h
  have := h demo 10 [.validate 0 1 false false, .data 0 ⟨demoName 1, 1000, 7⟩] 0 (by simp [Quiet])
  exact this (List.mem_of_getLast? (by rfl))

/-- What holds of `C52_exception_claim`: certificates with validity periods cause no exception. -/
theorem C52_exception_partial (E : Env P) (t : Int) (ops : List (Op P)) (hq : ∀ op ∈ ops, Quiet op) (hp : ∀ op ∈ ops, Periods E op)
    (i : Nat) : Obs.threw i ∉ (run E (start P t) ops).2 := by
  obtain ⟨h1, h2, h3⟩ := start_inv (E := E) t (fun _ => True) (depths_ge ops)
  have hok : ∀ op ∈ ops, OpOk (fun _ => True) (depths ops) op := by
    intro op ho
    refine ⟨?_, depths_ok ops op ho⟩
    rintro id p a b rfl _
    exact hq _ ho
  obtain ⟨_, _, _, _, ht⟩ := run_inv ops hok _ h1 h2 h3
  intro hm
  rcases ht i hm trivial with h | ⟨c, h, hper⟩
  · simp [start] at h
  · have := hp _ h
    simp only [Periods] at this
    rw [hper] at this; cases this

example : (∀ op ∈ demoOps, Quiet op) ∧ ∀ op ∈ demoOps, Periods demo op := by
  refine ⟨by simp [demoOps, Quiet], ?_⟩
  simp only [demoOps, List.mem_cons, List.not_mem_nil, or_false, forall_eq_or_imp, forall_eq, Periods, true_and]
  decide

/-- The recursion bound of the model is never reached. -/
theorem C52_no_fuel (E : Env P) (t : Int) (ops : List (Op P)) : Obs.fuel ∉ (run E (start P t) ops).2 := by
  obtain ⟨h1, h2, h3⟩ := start_inv (E := E) t (fun _ => False) (depths_ge ops)
  exact (run_inv ops (fun op ho => ⟨fun _ _ _ _ _ hq => hq.elim, depths_ok ops op ho⟩) _ h1 h2 h3).2.1.fuel

/-- C52: a fetched certificate stays in the store until five minutes after it was received, or until the end of its
validity period if that comes first. -/
theorem C52_lifetime (E : Env P) (t : Int) (ops : List (Op P)) (e : Entry) (h : e ∈ (run E (start P t) ops).1.unverified.certs) :
    ∃ a b, (run E (start P t) ops).2 = a ++ .received e.cert :: b ∧ e.removal = min e.cert.notAfter (clockOf a + 300000000000) := by
  obtain ⟨h1, h2, h3⟩ := start_inv (E := E) t (fun _ => False) (depths_ge ops)
  exact (run_inv ops (fun op ho => ⟨fun _ _ _ _ _ hq => hq.elim, depths_ok ops op ho⟩) _ h1 h2 h3).1.g.unv e h

/-- C52: a certificate fetched for one validation serves others without another Interest for at most five minutes, and not
after the end of its validity period: whatever the store of fetched certificates yields was received no longer ago. -/
theorem C52_recent (E : Env P) (t : Int) (ops : List (Op P)) (n : List Comp) (c : Crt)
    (h : ((run E (start P t) ops).1.unverified.findInterest n (E.isMatch n)).2 = some c) :
    ∃ a b, (run E (start P t) ops).2 = a ++ .received c :: b ∧ clockOf (run E (start P t) ops).2 ≤ clockOf a + 300000000000 ∧
      clockOf (run E (start P t) ops).2 ≤ c.notAfter := by
  obtain ⟨i1, i2, i3⟩ := start_inv (E := E) t (fun _ => False) (depths_ge ops)
  have hi := (run_inv ops (fun op ho => ⟨fun _ _ _ _ _ hq => hq.elim, depths_ok ops op ho⟩) _ i1 i2 i3).1.g
  obtain ⟨e, he, rfl, h0, -, -⟩ := findInterest_some h
  obtain ⟨a, b, h1, h2⟩ := hi.unv e he
  have := hi.clk'
  exact ⟨a, b, h1, by omega, by omega⟩

example : ((run demo (start Nat 10) demoOps).1.unverified.certs).length ≠ 0 := by decide +kernel

end Ndn.Validator
