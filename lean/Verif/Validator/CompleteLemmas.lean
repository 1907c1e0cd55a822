import Verif.Validator.StepLemmas
/-
Lemmas for the acceptance of packets with a good chain.
-/
namespace Ndn.Validator
open Ndn.Name Ndn.Name.Spec Ndn.Cert

variable {P : Type} {E : Env P}

theorem verifyChain_snoc (root : Crt) (cs : List Crt) (c : Crt) (h : ∀ x ∈ [c], True)
    (hv : verifyChain E root cs = (cs, some r)) (hc : E.verifyCert c r = true) :
    verifyChain E root (cs ++ [c]) = (cs ++ [c], some c) := by
  induction cs generalizing root with
  | nil =>
    simp only [verifyChain, Prod.mk.injEq, Option.some.injEq, true_and] at hv
    subst hv
    simp [verifyChain, hc]
  | cons x cs ih =>
    unfold verifyChain at hv
    split at hv
    · rename_i hx
      simp only [Prod.mk.injEq, List.cons.injEq, true_and] at hv
      have := ih x (by rw [← Prod.eta (verifyChain E x cs)]; rw [hv.1, hv.2])
      simp [verifyChain, hx, this]
    · simp at hv

/-- A good chain verifies. -/
theorem verifyChain_signed {root : Crt} : ∀ cs : List Crt, SignedBy E root cs →
    verifyChain E root cs.reverse = (cs.reverse, some (cs.head?.getD root)) := by
  intro cs
  induction cs with
  | nil => intro _; rfl
  | cons c cs ih =>
    intro h
    cases cs with
    | nil =>
      simp only [SignedBy] at h
      simp [verifyChain, h]
    | cons c' cs =>
      obtain ⟨h1, h2⟩ := h
      have := ih h2
      rw [List.reverse_cons]
      simp only [List.head?_cons, Option.getD_some] at this ⊢
      exact verifyChain_snoc root _ c (by simp) this h1

theorem scan_none {l : List Entry} {n : List Comp} {m : Crt → Bool} (h : ∀ e ∈ l, ¬ (m e.cert = true ∧ n <+: e.cert.name)) :
    scan n m l = none := by
  cases hs : scan n m l with
  | none => rfl
  | some c =>
    obtain ⟨e, he, rfl, h1, h2⟩ := scan_some hs
    exact absurd ⟨h2, h1⟩ (h e he)

/-- With one anchor and nothing cached. -/
theorem lowerBound_one {e : Entry} {n : List Comp} (h : n <+: e.cert.name) : lowerBound [e] n = [e] := by
  unfold lowerBound
  rw [List.dropWhile_cons_of_neg]
  simp only [Bool.not_eq_true]
  rw [← Bool.not_eq_true, Ims.nameLt_iff]
  exact Ims.not_lt_of_prefix h

/-- The state while a chain is being fetched. -/
structure Mid (E : Env P) (t : Int) (root : Crt) (got : List Crt) (s : St P) : Prop where
  depth : s.maxDepth = 25
  anchors : s.anchors = [⟨root, 0⟩]
  verified : s.verified.certs = []
  now : s.verified.now = t
  unverified : ∀ e ∈ s.unverified.certs, e.cert ∈ got

theorem findTrusted_root {t : Int} {root : Crt} {got : List Crt} {s : St P} (h : Mid E t root got s) {n : List Comp}
    (hn : Satisfies E n root) : findTrusted E s n = (s, some root) := by
  unfold findTrusted
  rw [h.anchors, lowerBound_one hn.2]
  simp [scan, List.isPrefixOf_iff_prefix, hn.1, hn.2]

theorem findTrusted_other {t : Int} {root : Crt} {got : List Crt} {s : St P} (h : Mid E t root got s) {n : List Comp}
    (hn : ¬ Satisfies E n root) : (findTrusted E s n).2 = none ∧ Mid E t root got (findTrusted E s n).1 ∧
      (findTrusted E s n).1.vals = s.vals := by
  unfold findTrusted
  rw [scan_none]
  · have h0 : s.verified.refresh.certs = [] := by simp [Cache.refresh, h.verified]
    refine ⟨?_, ?_, rfl⟩
    · simp [Cache.findInterest, h0, lowerBound, scan]
    · refine ⟨h.depth, h.anchors, ?_, ?_, h.unverified⟩
      · simpa [Cache.findInterest] using h0
      · simpa [Cache.findInterest, refresh_now] using h.now
  · intro e he
    have := (lowerBound_sublist _ _).subset he
    rw [h.anchors] at this
    simp only [List.mem_singleton] at this
    subst this
    exact hn

/-- The last request: the anchor is found and everything verifies. -/
theorem go_root {t : Int} {root : Crt} {got : List Crt} {s : St P} {v : V P} {n : List Comp} {cs : List Crt} (h : Mid E t root got s)
    (hlen : v.chain.length < 25) (hd : n ≠ E.digestName) (hs : n ∉ v.seen) (hn : Satisfies E n root)
    (hc : v.chain = cs.reverse) (hsig : SignedBy E root cs) (hp : E.verify v.pkt (cs.head?.getD root) = true) (hq : v.throwsOk = false)
    (fuel : Nat) : (go E (fuel + 1) s v (.request n)).2.2 = [.success v.id v.pkt] := by
  unfold go
  rw [if_neg (by rw [h.depth]; omega), if_neg hd, if_neg (by simpa using hs)]
  simp only [findTrusted_root h hn]
  unfold conclude
  simp only [hc, verifyChain_signed cs hsig, hp]
  simp [succeeded, hq]

/-- A request that needs the network. -/
theorem go_net {t : Int} {root : Crt} {got : List Crt} {s : St P} {v : V P} {n : List Comp} (h : Mid E t root got s)
    (hlen : v.chain.length < 25) (hd : n ≠ E.digestName) (hs : n ∉ v.seen) (hn : ¬ Satisfies E n root)
    (hu : ∀ c ∈ got, ¬ Satisfies E n c) (hoff : E.offline = false) (fuel : Nat) :
    (go E (fuel + 2) s v (.request n)).2.2 = [.interest v.id n] ∧
    (go E (fuel + 2) s v (.request n)).2.1 = { v with seen := n :: v.seen, phase := .fetching n 3 } ∧
    Mid E t root got (go E (fuel + 2) s v (.request n)).1 := by
  obtain ⟨h1, h2, h3⟩ := findTrusted_other h hn
  rw [go, if_neg (by rw [h.depth]; omega), if_neg hd, if_neg (by simpa using hs)]
  rw [← Prod.eta (findTrusted E s n), h1]
  simp only
  generalize (findTrusted E s n).1 = s1 at h2
  have hfi : (s1.unverified.findInterest n (E.isMatch n)).2 = none := by
    unfold Cache.findInterest
    apply scan_none
    intro e he
    have := mem_refresh.mp ((lowerBound_sublist _ _).subset he)
    exact hu _ (h2.unverified e this.1)
  unfold go
  simp only [hfi, hoff]
  refine ⟨by simp, by simp, ?_⟩
  simp only [Bool.false_eq_true, if_false]
  exact ⟨h2.depth, h2.anchors, h2.verified, h2.now, fun e he => h2.unverified e (mem_refresh.mp he).1⟩

/-- The network supplies the certificates of the links in turn. -/
theorem chain_fetched {t : Int} {root : Crt} {p : P} {id : Nat} {nf : List Comp} (hoff : E.offline = false) (hroot : Satisfies E nf root) :
    ∀ (ls done : List (List Comp × Crt)) (s : St P) (log : List (Obs P)) (n : List Comp) (c : Crt),
      Mid E t root (done.map Prod.snd) s →
      s.vals = [⟨id, p, (done.map Prod.snd).reverse, n :: (done.map Prod.fst).reverse, .fetching n 3, false, false⟩] →
      E.isMatch n c = true → n <+: c.name → Follows E (E.policyCert c) ls nf →
      (done ++ (n, c) :: ls).length < 25 →
      ((done ++ (n, c) :: ls).map Prod.fst ++ [nf]).Nodup →
      (∀ m ∈ (done ++ (n, c) :: ls).map Prod.fst ++ [nf], m ≠ E.digestName) →
      (∀ l ∈ done ++ (n, c) :: ls, E.hasPeriod l.2 = true ∧ E.notBefore l.2 ≤ t ∧ t ≤ l.2.notAfter ∧ ¬ Satisfies E l.1 root) →
      (∀ a l b, done ++ (n, c) :: ls = a ++ l :: b → ∀ x ∈ a, ¬ Satisfies E l.1 x.2) →
      SignedBy E root ((done ++ (n, c) :: ls).map Prod.snd) →
      E.verify p (((done ++ (n, c) :: ls).map Prod.snd).head?.getD root) = true →
      Obs.success id p ∈ (run E (s, log) (((n, c) :: ls).map (fun l => Op.data id l.2))).2 := by
  intro ls
  induction ls with
  | nil =>
    intro done s log n c hm hv h1 h2 hf hlen hnd hdig hval hun hsig hver
    simp only [List.map_cons, List.map_nil, run, step]
    have hfind : find s.vals id = some ⟨id, p, (done.map Prod.snd).reverse, n :: (done.map Prod.fst).reverse, .fetching n 3, false, false⟩ := by
      rw [hv]; simp [find]
    rw [hfind]
    simp only [h1, List.isPrefixOf_iff_prefix.mpr h2, (hval (n, c) (by simp)).1, Bool.and_self, if_true]
    have hfuel : ∃ f, bound { s with unverified := s.unverified.insert unverifiedLife c }
        (⟨id, p, (done.map Prod.snd).reverse, n :: (done.map Prod.fst).reverse, .fetching n 3, false, false⟩ : V P) = f + 1 + 1 :=
      ⟨_, rfl⟩
    obtain ⟨f, hfu⟩ := hfuel
    rw [hfu, go]
    have hnow : E.notBefore c ≤ s.verified.now ∧ s.verified.now ≤ c.notAfter := by
      rw [hm.now]; exact ⟨(hval (n, c) (by simp)).2.1, (hval (n, c) (by simp)).2.2.1⟩
    rw [if_neg (by simpa using hnow)]
    simp only [Follows] at hf
    rw [hf]
    simp only [back]
    have hmid : Mid E t root ((done.map Prod.snd) ++ [c]) { s with unverified := s.unverified.insert unverifiedLife c } := by
      refine ⟨hm.depth, hm.anchors, hm.verified, hm.now, ?_⟩
      intro e he
      rcases insert_entries he with he | ⟨he, _⟩
      · simp [hm.unverified e he]
      · simp [he]
    have := go_root (E := E) (v := ⟨id, p, c :: (done.map Prod.snd).reverse, n :: (done.map Prod.fst).reverse, .fetching n 3, false, false⟩)
      (n := nf) (cs := (done.map Prod.snd) ++ [c]) hmid (by simp at hlen ⊢; omega)
      (hdig nf (by simp)) ?_ hroot (by simp) (by simpa using hsig) (by simpa using hver) rfl f
    · simp only at this
      rw [this]
      simp
    · simp only [List.map_append, List.map_cons, List.map_nil, List.append_assoc, List.singleton_append] at hnd
      have := List.nodup_append.mp hnd
      intro hx
      rcases List.mem_cons.mp hx with hx | hx
      · have := this.2.1
        simp [hx] at this
      · exact this.2.2 nf (by simpa using hx) nf (by simp) rfl
  | cons l ls ih =>
    intro done s log n c hm hv h1 h2 hf hlen hnd hdig hval hun hsig hver
    obtain ⟨n', c'⟩ := l
    simp only [List.map_cons] at ih ⊢
    rw [run]
    simp only [step]
    have hfind : find s.vals id = some ⟨id, p, (done.map Prod.snd).reverse, n :: (done.map Prod.fst).reverse, .fetching n 3, false, false⟩ := by
      rw [hv]; simp [find]
    rw [hfind]
    simp only [h1, List.isPrefixOf_iff_prefix.mpr h2, (hval (n, c) (by simp)).1, Bool.and_self, if_true]
    have hfuel : ∃ f, bound { s with unverified := s.unverified.insert unverifiedLife c }
        (⟨id, p, (done.map Prod.snd).reverse, n :: (done.map Prod.fst).reverse, .fetching n 3, false, false⟩ : V P) = f + 2 + 1 :=
      ⟨_, rfl⟩
    obtain ⟨f, hfu⟩ := hfuel
    rw [hfu, go]
    have hnow : E.notBefore c ≤ s.verified.now ∧ s.verified.now ≤ c.notAfter := by
      rw [hm.now]; exact ⟨(hval (n, c) (by simp)).2.1, (hval (n, c) (by simp)).2.2.1⟩
    rw [if_neg (by simpa using hnow)]
    simp only [Follows] at hf
    obtain ⟨f1, f2, f3, f4⟩ := hf
    rw [f1]
    simp only [back]
    have hmid : Mid E t root ((done.map Prod.snd) ++ [c]) { s with unverified := s.unverified.insert unverifiedLife c } := by
      refine ⟨hm.depth, hm.anchors, hm.verified, hm.now, ?_⟩
      intro e he
      rcases insert_entries he with he | ⟨he, _⟩
      · simp [hm.unverified e he]
      · simp [he]
    have hsplit : done ++ (n, c) :: (n', c') :: ls = (done ++ [(n, c)]) ++ (n', c') :: ls := by simp
    obtain ⟨g1, g2, g3⟩ := go_net (E := E) (v := ⟨id, p, c :: (done.map Prod.snd).reverse, n :: (done.map Prod.fst).reverse, .fetching n 3, false, false⟩)
      (n := n') hmid (by simp at hlen ⊢; omega) (hdig n' (by simp)) (by
        simp only [List.map_append, List.map_cons, List.append_assoc, List.cons_append] at hnd
        have := List.nodup_append.mp hnd
        intro hx
        rcases List.mem_cons.mp hx with hx | hx
        · have := this.2.1
          simp [hx] at this
        · exact this.2.2 n' (by simpa using hx) n' (by simp) rfl)
      (hval (n', c') (by simp)).2.2.2 (by
        intro x hx hsat
        have hx : x ∈ (done ++ [(n, c)]).map Prod.snd := by simpa using hx
        obtain ⟨y, hy, rfl⟩ := List.mem_map.mp hx
        exact hun (done ++ [(n, c)]) (n', c') ls hsplit y hy hsat) hoff f
    have hsv := (go_same (E := E) (log := log) (f + 2) { s with unverified := s.unverified.insert unverifiedLife c }
      ⟨id, p, c :: (done.map Prod.snd).reverse, n :: (done.map Prod.fst).reverse, .fetching n 3, false, false⟩ (.request n')).1
    rw [hsplit] at hlen hnd hdig hval hun hsig hver
    refine ih (done ++ [(n, c)]) _ _ n' c' ?_ ?_ f2 f3 f4 hlen hnd hdig hval hun hsig hver
    · have : (done ++ [(n, c)]).map Prod.snd = done.map Prod.snd ++ [c] := by simp
      rw [this]
      exact ⟨g3.depth, g3.anchors, g3.verified, g3.now, g3.unverified⟩
    · simp only at hsv g2 ⊢
      rw [hsv, g2, hv]
      simp [put]

end Ndn.Validator
