import Verif.Replay.SignedLemmas

/-! Records after any history, the records of `ValidationPolicyCommandInterest`, clocks. -/
namespace Ndn.Replay
open Spec

section
variable {K : Type} [DecidableEq K]

/-- What any Interest that passed the check has. -/
def Passed (o : Opts) (x : Itm K) (now : Nat) : Prop :=
  x.v03 = true →
    (∃ k, x.key = some k) ∧
    (o.valTs = true → ∃ m, x.time = some m ∧ ((now : Int) - instant m * 1000000).natAbs ≤ o.grace) ∧
    (o.valSeq = true → ∃ n, x.seq = some n) ∧
    (o.valNonce = true → ∃ n, x.nonce = some n)

theorem passed_of_check {o : Opts} {now : Nat} {recs : List (Rec K)} {x : Itm K} (h : check o now recs x = .pass) :
    Passed o x now := by
  intro hv
  obtain ⟨k, ts, hxk, hts, h1, h2, h3⟩ := check_pass h hv
  refine ⟨⟨k, hxk⟩, ?_, ?_, ?_⟩
  · intro hvt
    obtain ⟨t', rfl, hg, _⟩ := checkTs_pass h1 hvt
    obtain ⟨m', hm', rfl⟩ := timeOf_some hts
    exact ⟨m', hm', hg⟩
  · intro hvs
    obtain ⟨n, hn, _⟩ := checkSeq_pass h2 hvs
    exact ⟨n, hn⟩
  · intro hvn
    obtain ⟨n, hn, _⟩ := checkNonce_pass h3 hvn
    exact ⟨n, hn⟩

/-- What is known of the records after any history: each value comes from a recording of the key, and
without a limit the last recording of each key is remembered. -/
structure InvA (o : Opts) (recs : List (Rec K)) (l : List (Itm K × Nat)) : Prop where
  nodup : (recs.map Rec.key).Nodup
  ts : ∀ r ∈ recs, ∀ t, r.ts = some t → ∃ e ∈ l, e.1.key = some r.key ∧ ∃ m, e.1.time = some m ∧ t = instant m * 1000000
  seq : ∀ r ∈ recs, ∀ n, r.seq = some n → ∃ e ∈ l, e.1.key = some r.key ∧ e.1.seq = some n
  nonce : ∀ r ∈ recs, ∀ n ∈ r.nonces, ∃ e ∈ l, e.1.key = some r.key ∧ e.1.nonce = some n
  len : ∀ r ∈ recs, o.maxNonce ≥ 0 → (r.nonces.length : Int) ≤ o.maxNonce
  last : o.maxRec < 0 → ∀ a y b, l = a ++ y :: b → (∀ e ∈ b, e.1.key ≠ y.1.key) →
    ∃ r ∈ recs, y.1.key = some r.key ∧
      (o.valTs = true → ∃ m, y.1.time = some m ∧ r.ts = some (instant m * 1000000)) ∧
      (o.valSeq = true → ∃ n, y.1.seq = some n ∧ r.seq = some n) ∧
      (o.valNonce = true → o.maxNonce ≠ 0 → ∃ n, y.1.nonce = some n ∧ n ∈ r.nonces)

theorem pushNonce_mem {o : Opts} {new : Option (List UInt8)} {l : List (List UInt8)} {n : List UInt8}
    (h : n ∈ pushNonce o new l) : n ∈ l ∨ new = some n := by
  cases new with
  | none => exact Or.inl h
  | some m =>
    have key : ∀ l' : List (List UInt8), (∀ x ∈ l', x ∈ l ∨ x = m) →
        n ∈ (if o.maxNonce ≥ 0 && decide ((l'.length : Int) > o.maxNonce) then l'.drop 1 else l') → n ∈ l ∨ some m = some n := by
      intro l' hl' hn
      have : n ∈ l' := by
        split at hn
        · exact List.mem_of_mem_drop hn
        · exact hn
      rcases hl' n this with h | h
      · exact Or.inl h
      · right; rw [h]
    simp only [pushNonce] at h
    split at h
    · refine key _ ?_ h
      intro x hx
      split at hx
      · exact Or.inl hx
      · simp at hx; exact hx
    · exact Or.inl h

theorem pushNonce_len {o : Opts} {new : Option (List UInt8)} {l : List (List UInt8)} (h0 : o.maxNonce ≥ 0)
    (h : (l.length : Int) ≤ o.maxNonce) : ((pushNonce o new l).length : Int) ≤ o.maxNonce := by
  cases new with
  | none => exact h
  | some m =>
    simp only [pushNonce]
    split
    · split
      · split
        · simp; omega
        · exact h
      · split
        · simp at *; omega
        · rename_i h3; simp at h3 ⊢; omega
    · exact h

theorem pushNonce_new {o : Opts} {n : List UInt8} {l : List (List UInt8)} (hv : o.valNonce = true)
    (h0 : o.maxNonce ≠ 0) (h : o.maxNonce ≥ 0 → (l.length : Int) ≤ o.maxNonce) : n ∈ pushNonce o (some n) l := by
  by_cases hn : n ∈ l
  · have h2 : l.contains n = true := by simpa using hn
    have h1 : (o.maxNonce != 0) = true := by simpa using h0
    simp only [pushNonce, hv, h1, h2, Bool.and_self, if_true]
    split
    · rename_i h3; simp at h3; have := h h3.1; omega
    · exact hn
  · obtain ⟨pre, hp⟩ := pushNonce_last hv (by omega) hn
    rw [hp]; simp

theorem invA_insert {o : Opts} {now t : Nat} {recs recs' : List (Rec K)} {l : List (Itm K × Nat)} {x : Itm K}
    (hI : InvA o recs l) (hJ : Passed o x now) (hi : insertRecord o t recs x = some recs') :
    InvA o recs' (l ++ [(x, t)]) := by
  simp only [insertRecord] at hi
  split at hi
  case isFalse => contradiction
  rename_i hcond
  simp at hcond
  obtain ⟨hv, hmax⟩ := hcond
  obtain ⟨⟨k, hxk⟩, hpt, hps, hpn⟩ := hJ hv
  cases hts : timeOf x.time with
  | none => simp [hxk, hts] at hi
  | some ts =>
  simp only [hxk, hts, Option.some.injEq] at hi
  subst hi
  obtain ⟨r', hrk, hrl, hperm, hcase, _⟩ := upsert_perm o t k ts x recs hI.nodup
  have hnodupF : ((recs.filter (fun r => r.key != k) ++ [r']).map Rec.key).Nodup := by
    rw [List.map_append, List.nodup_append]
    refine ⟨hI.nodup.sublist ((List.filter_sublist).map _), by simp, ?_⟩
    intro a ha b hb
    simp at ha hb
    obtain ⟨q, ⟨_, hq⟩, rfl⟩ := ha
    rw [hb, hrk]; exact hq
  have hnodupU : ((upsert o t k ts x recs).map Rec.key).Nodup := (hperm.map _).nodup_iff.mpr hnodupF
  have hsub := limit_sublist o (upsert o t k ts x recs)
  have hmem : ∀ r ∈ limit o (upsert o t k ts x recs), r ∈ recs ∨ r = r' := by
    intro r hr
    rcases List.mem_append.mp (hperm.mem_iff.mp (hsub.subset hr)) with h | h
    · exact Or.inl (List.mem_filter.mp h).1
    · right; simpa using h
  have old : ∀ r, findRec recs k = some r → r ∈ recs ∧ r.key = k := fun r h => findRec_some h
  refine ⟨hnodupU.sublist (hsub.map _), ?_, ?_, ?_, ?_, ?_⟩
  · intro r hr t' ht'
    have lift : (∃ e ∈ l, e.1.key = some r.key ∧ ∃ m, e.1.time = some m ∧ t' = instant m * 1000000) →
        ∃ e ∈ l ++ [(x, t)], e.1.key = some r.key ∧ ∃ m, e.1.time = some m ∧ t' = instant m * 1000000 := by
      rintro ⟨e, he, h⟩; exact ⟨e, by simp [he], h⟩
    rcases hmem r hr with h | rfl
    · exact lift (hI.ts r h t' ht')
    · have self : ts = some t' → ∃ e ∈ l ++ [(x, t)], e.1.key = some r.key ∧ ∃ m, e.1.time = some m ∧ t' = instant m * 1000000 := by
        rintro rfl
        obtain ⟨m, hm, rfl⟩ := timeOf_some hts
        exact ⟨(x, t), by simp, by rw [hrk]; exact hxk, m, hm, rfl⟩
      rcases hcase with ⟨_, rfl⟩ | ⟨r0, h0, rfl⟩
      · exact self ht'
      · simp only [fresh, updRec] at ht'
        split at ht'
        · exact self ht'
        · have := hI.ts r0 (old r0 h0).1 t' ht'
          exact lift this
  · intro r hr n hn
    have lift : (∃ e ∈ l, e.1.key = some r.key ∧ e.1.seq = some n) →
        ∃ e ∈ l ++ [(x, t)], e.1.key = some r.key ∧ e.1.seq = some n := by
      rintro ⟨e, he, h⟩; exact ⟨e, by simp [he], h⟩
    rcases hmem r hr with h | rfl
    · exact lift (hI.seq r h n hn)
    · have self : x.seq = some n → ∃ e ∈ l ++ [(x, t)], e.1.key = some r.key ∧ e.1.seq = some n := by
        intro h
        exact ⟨(x, t), by simp, by rw [hrk]; exact hxk, h⟩
      rcases hcase with ⟨_, rfl⟩ | ⟨r0, h0, rfl⟩
      · exact self hn
      · simp only [fresh, updRec] at hn
        split at hn
        · exact self hn
        · exact lift (hI.seq r0 (old r0 h0).1 n hn)
  · intro r hr n hn
    have lift : (∃ e ∈ l, e.1.key = some r.key ∧ e.1.nonce = some n) →
        ∃ e ∈ l ++ [(x, t)], e.1.key = some r.key ∧ e.1.nonce = some n := by
      rintro ⟨e, he, h⟩; exact ⟨e, by simp [he], h⟩
    rcases hmem r hr with h | rfl
    · exact lift (hI.nonce r h n hn)
    · have self : x.nonce = some n → ∃ e ∈ l ++ [(x, t)], e.1.key = some r.key ∧ e.1.nonce = some n := by
        intro h
        exact ⟨(x, t), by simp, by rw [hrk]; exact hxk, h⟩
      rcases hcase with ⟨_, rfl⟩ | ⟨r0, h0, rfl⟩
      · rcases pushNonce_mem (show n ∈ pushNonce o x.nonce [] from hn) with h | h
        · simp at h
        · exact self h
      · rcases pushNonce_mem (show n ∈ pushNonce o x.nonce r0.nonces from hn) with h | h
        · exact lift (hI.nonce r0 (old r0 h0).1 n h)
        · exact self h
  · intro r hr h0
    rcases hmem r hr with h | rfl
    · exact hI.len r h h0
    · rcases hcase with ⟨_, rfl⟩ | ⟨r0, h1, rfl⟩
      · exact pushNonce_len h0 (by simpa using h0)
      · exact pushNonce_len h0 (hI.len r0 (old r0 h1).1 h0)
  · intro hunl a y b hl hlast
    have hlim : limit o (upsert o t k ts x recs) = upsert o t k ts x recs := by
      have : (decide (o.maxRec ≥ 0)) = false := by simp; omega
      simp [limit, this]
    rw [hlim]
    rcases snoc_split hl with ⟨_, h2, h3⟩ | ⟨b', h2, h3⟩
    · subst h2 h3
      refine ⟨r', hperm.mem_iff.mpr (by simp), by rw [hrk]; exact hxk, ?_, ?_, ?_⟩
      · intro hvt
        obtain ⟨m, hm, _⟩ := hpt hvt
        refine ⟨m, hm, ?_⟩
        have : ts = some (instant m * 1000000) := by
          cases ts with
          | none =>
            rw [hm] at hts
            simp [timeOf] at hts
          | some t' =>
            obtain ⟨m', hm', rfl⟩ := timeOf_some hts
            rw [hm] at hm'; cases hm'; rfl
        rcases hcase with ⟨_, rfl⟩ | ⟨r, _, rfl⟩ <;> simp [newRec, fresh, updRec, this]
      · intro hvs
        obtain ⟨n, hn⟩ := hps hvs
        refine ⟨n, hn, ?_⟩
        rcases hcase with ⟨_, rfl⟩ | ⟨r, _, rfl⟩ <;> simp [newRec, fresh, updRec, hn]
      · intro hvn hmn
        obtain ⟨n, hn⟩ := hpn hvn
        refine ⟨n, hn, ?_⟩
        rcases hcase with ⟨_, rfl⟩ | ⟨r, h1, rfl⟩
        · simp only [newRec, hn]
          exact pushNonce_new hvn hmn (by intro h; simpa using h)
        · simp only [fresh, updRec, hn]
          exact pushNonce_new hvn hmn (hI.len r (old r h1).1)
    · subst h2
      obtain ⟨r, hr, h⟩ := hI.last hunl a y b' h3 (fun e he => hlast e (by simp [he]))
      refine ⟨r, ?_, h⟩
      apply hperm.mem_iff.mpr
      simp only [List.mem_append, List.mem_filter]
      left
      refine ⟨hr, ?_⟩
      simp only [bne_iff_ne, ne_eq]
      intro hk
      exact hlast (x, t) (by simp) (by rw [h.1, hk]; exact hxk)

/-- Everything about one signed Interest policy, after any history. -/
theorem signed_any (o : Opts) (now0 t0 : Nat) (ops : List (Op (Itm K))) :
    let s := run (signed o) (init [] now0 t0) ops
    InvA o s.recs (recordings s.log) ∧
    (∀ p ∈ s.pend, p.t ≤ s.steady ∧ Passed o p.itm p.now) ∧
    (∀ j x now t, Obs.accepted j x now t ∈ s.log → Passed o x now) ∧
    (∀ pre j x now t post, s.log = pre ++ .checked j x now t :: post →
      ∃ r r', InvA o r (recordings pre) ∧ (signed o).check now t r x = (.pass, r')) := by
  refine any_run (signed o) [] now0 t0 (fun _ r l => InvA o r l) (fun x now _ => Passed o x now) ?_ ?_ ?_ ?_ ops
  · exact ⟨by simp, by simp, by simp, by simp, by simp, by simp⟩
  · intro t t' r l h _; exact h
  · intro now t r l x v r' h hc
    simp only [signed, Prod.mk.injEq] at hc
    obtain ⟨rfl, rfl⟩ := hc
    exact ⟨h, fun hp => passed_of_check hp⟩
  · intro now t t' r l x r' h hj _ hi
    exact invA_insert h hj hi

/-- Everything about one signed Interest policy, after a sequential history. -/
theorem signed_seq (o : Opts) (now0 t0 : Nat) (ops : List (Op (Itm K)))
    (hs : Sequential (signed o) (init [] now0 t0) ops) :
    let s := run (signed o) (init [] now0 t0) ops
    ∀ pre j x now t post, s.log = pre ++ .accepted j x now t :: post →
      ∃ r, InFlight o x now r (recordings pre) := by
  have := seq_run (signed o) [] now0 t0 (fun t r l => InvS o t r l) (fun x now _ r l => InFlight o x now r l)
    ?_ ?_ ?_ ?_ ops hs
  · intro s pre j x now t post h
    obtain ⟨r, _, _, _, hj⟩ := this.2.2.2 pre j x now t post h
    exact ⟨r, hj⟩
  · exact ⟨by simp, by simp, by simp, by simp⟩
  · intro t t' r l h ht
    exact ⟨h.nodup, fun e he => Nat.le_trans (h.times e he) ht, h.last, h.ord⟩
  · intro now t r l x v r' h hc
    simp only [signed, Prod.mk.injEq] at hc
    obtain ⟨rfl, rfl⟩ := hc
    exact ⟨h, fun hp => inFlight_of_check h hp⟩
  · intro now t t' r l x r' h hj _ hi
    exact invS_insert h hj hi

/-! ### Command Interests -/

theorem crec_unique {recs : List (CRec K)} (hn : (recs.map CRec.key).Nodup) {r r' : CRec K} (h : r ∈ recs)
    (h' : r' ∈ recs) (hk : r.key = r'.key) : r = r' := by
  induction recs with
  | nil => simp at h
  | cons q qs ih =>
    simp at hn h h'
    rcases h with rfl | h <;> rcases h' with rfl | h'
    · rfl
    · exact absurd hk.symm (hn.1 _ h')
    · exact absurd hk (hn.1 _ h)
    · exact ih hn.2 h h'

theorem cleanup_sublist (o : COpts) (t : Nat) (recs : List (CRec K)) : (cleanup o t recs).Sublist recs := by
  induction recs with
  | nil => exact List.Sublist.refl _
  | cons r rs ih =>
    simp only [cleanup]
    split
    · exact ih.trans (List.sublist_cons_self _ _)
    · exact List.Sublist.refl _

theorem cleanup_keep (o : COpts) (t : Nat) (r : CRec K) (post : List (CRec K))
    (h1 : ¬ (r.last : Int) ≤ (t : Int) - o.lifetime)
    (h2 : ¬ (o.maxRec ≥ 0 ∧ ((post.length + 1 : Nat) : Int) > o.maxRec)) :
    ∀ pre, ∃ pre', cleanup o t (pre ++ r :: post) = pre' ++ r :: post
  | [] => ⟨[], by simp only [List.nil_append, cleanup]; rw [if_neg (by rintro (h | h); exact h1 h; exact h2 h)]⟩
  | q :: qs => by
    obtain ⟨pre', h⟩ := cleanup_keep o t r post h1 h2 qs
    simp only [List.cons_append, cleanup]
    split
    · exact ⟨pre', h⟩
    · exact ⟨q :: qs, rfl⟩

/-- There is no limit, or fewer other keys than the limit were recorded. -/
def KeptC (o : COpts) (y : Cmd K × Nat) (b : List (Cmd K × Nat)) : Prop :=
  o.maxRec < 0 ∨ FewOthers Cmd.key o.maxRec y.1.key b

structure InvC (o : COpts) (t : Nat) (recs : List (CRec K)) (l : List (Cmd K × Nat)) : Prop where
  nodup : (recs.map CRec.key).Nodup
  times : ∀ e ∈ l, e.2 ≤ t
  ord : ∀ a y b, l = a ++ y :: b → KeptC o y b → (t : Int) < y.2 + o.lifetime →
    ∃ pre r post, recs = pre ++ r :: post ∧ y.1.key = some r.key ∧ y.2 ≤ r.last ∧
      (∃ m, y.1.time = some m ∧ instant m * 1000000 ≤ r.ts) ∧
      (∀ q ∈ post, some q.key ≠ y.1.key ∧ ∃ e ∈ b, e.1.key = some q.key)

/-- What the check of a command Interest in flight established. -/
def InFlightC (o : COpts) (x : Cmd K) (now t : Nat) (l : List (Cmd K × Nat)) : Prop :=
  (∃ k m, x.key = some k ∧ x.time = some m ∧ fromMs m = some (instant m * 1000000) ∧
    ((now : Int) - instant m * 1000000).natAbs ≤ o.grace) ∧
  (∀ a y b, l = a ++ y :: b → y.1.key = x.key → KeptC o y b → (t : Int) < y.2 + o.lifetime →
    ∃ m m', y.1.time = some m ∧ x.time = some m' ∧ instant m < instant m')

theorem post_small {o : COpts} {y : Cmd K × Nat} {b : List (Cmd K × Nat)} {post : List (CRec K)}
    (hk : KeptC o y b) (hn : (post.map CRec.key).Nodup)
    (hp : ∀ q ∈ post, some q.key ≠ y.1.key ∧ ∃ e ∈ b, e.1.key = some q.key) :
    ¬ (o.maxRec ≥ 0 ∧ ((post.length + 1 : Nat) : Int) > o.maxRec) := by
  rintro ⟨h0, h1⟩
  rcases hk with h | ⟨ks, h2, h3⟩
  · omega
  · have := nodup_subset_length (m := ks) hn (by
      intro k' hk'
      simp only [List.mem_map] at hk'
      obtain ⟨q, hq, rfl⟩ := hk'
      obtain ⟨hq1, e, he, he'⟩ := hp q hq
      obtain ⟨k2, hk2, hk2'⟩ := h3 e he (by rw [he']; exact hq1)
      rw [he'] at hk2'
      cases hk2'
      exact hk2)
    simp at this h1
    omega

theorem invC_cleanup {o : COpts} {t : Nat} {recs : List (CRec K)} {l : List (Cmd K × Nat)} (h : InvC o t recs l) :
    InvC o t (cleanup o t recs) l := by
  refine ⟨h.nodup.sublist ((cleanup_sublist o t recs).map _), h.times, ?_⟩
  intro a y b hl hk ht
  obtain ⟨pre, r, post, hr, h1, h2, h3, h4⟩ := h.ord a y b hl hk ht
  have hn : (post.map CRec.key).Nodup := by
    have := h.nodup
    rw [hr] at this
    refine this.sublist (List.Sublist.map _ ?_)
    exact (List.sublist_cons_self _ _).trans (List.sublist_append_right _ _)
  obtain ⟨pre', hp⟩ := cleanup_keep o t r post (by omega) (post_small hk hn h4) pre
  exact ⟨pre', r, post, by rw [hr, hp], h1, h2, h3, h4⟩

theorem fromMs_eq {n : Nat} {v : Int} (h : fromMs n = some v) : fromMs n = some (instant n * 1000000) := by
  rw [← fromMs_some h]; exact h

theorem invC_check {o : COpts} {now t : Nat} {recs recs' : List (CRec K)} {l : List (Cmd K × Nat)} {x : Cmd K}
    {v : Verdict} (hI : InvC o t recs l) (hc : cmdCheck o now t recs x = (v, recs')) :
    InvC o t recs' l ∧ (v = .pass → InFlightC o x now t l) := by
  simp only [cmdCheck] at hc
  cases hm : x.time with
  | none => simp [hm] at hc; obtain ⟨rfl, rfl⟩ := hc; exact ⟨hI, by simp⟩
  | some m =>
    simp only [hm] at hc
    cases hf : fromMs m with
    | none => simp [hf] at hc; obtain ⟨rfl, rfl⟩ := hc; exact ⟨hI, by simp⟩
    | some t' =>
      cases hk : x.key with
      | none => simp [hf, hk] at hc; obtain ⟨rfl, rfl⟩ := hc; exact ⟨hI, by simp⟩
      | some k =>
        have ht' := fromMs_some hf
        simp only [hf, hk] at hc
        have hcl := invC_cleanup hI
        split at hc
        · simp at hc; obtain ⟨rfl, rfl⟩ := hc; exact ⟨hcl, by simp⟩
        · rename_i hg
          have hgr : ((now : Int) - instant m * 1000000).natAbs ≤ o.grace := by
            rw [← ht']; omega
          have h0 : ∃ k m, x.key = some k ∧ x.time = some m ∧ fromMs m = some (instant m * 1000000) ∧
              ((now : Int) - instant m * 1000000).natAbs ≤ o.grace := ⟨k, m, hk, hm, fromMs_eq hf, hgr⟩
          cases hfind : (cleanup o t recs).find? (fun r => r.key == k) with
          | none =>
            simp only [hfind, Prod.mk.injEq] at hc
            obtain ⟨rfl, rfl⟩ := hc
            refine ⟨hcl, fun _ => ⟨h0, ?_⟩⟩
            intro a y b hl hy hkept hlt
            obtain ⟨pre, r, post, hr, h1, _⟩ := hcl.ord a y b hl hkept hlt
            have := List.find?_eq_none.mp hfind r (by rw [hr]; simp)
            rw [hy, hk] at h1
            cases h1
            simp at this
          | some r0 =>
            have hr0 := List.mem_of_find?_eq_some hfind
            have hr0k := List.find?_some hfind
            simp at hr0k
            simp only [hfind] at hc
            split at hc
            · simp at hc; obtain ⟨rfl, rfl⟩ := hc; exact ⟨hcl, by simp⟩
            · rename_i hgt
              simp at hc
              obtain ⟨rfl, rfl⟩ := hc
              refine ⟨hcl, fun _ => ⟨h0, ?_⟩⟩
              intro a y b hl hy hkept hlt
              obtain ⟨pre, r, post, hr, h1, _, ⟨m0, hm0, hle⟩, _⟩ := hcl.ord a y b hl hkept hlt
              have hrk : r.key = k := by rw [hy, hk] at h1; cases h1; rfl
              have : r = r0 := crec_unique hcl.nodup (by rw [hr]; simp) hr0 (by rw [hrk, hr0k])
              subst this
              exact ⟨m0, m, hm0, hm, by omega⟩

theorem invC_insert {o : COpts} {now t t' : Nat} {recs recs' : List (CRec K)} {l : List (Cmd K × Nat)} {x : Cmd K}
    (hI : InvC o t' recs l) (hJ : InFlightC o x now t l) (ht : t ≤ t') (hi : cmdInsert t' recs x = some recs') :
    InvC o t' recs' (l ++ [(x, t')]) := by
  obtain ⟨⟨k, m, hk, hm, hf, _⟩, hlt⟩ := hJ
  simp only [cmdInsert, hk, hm, Option.bind_some, hf, Option.some.injEq] at hi
  subst hi
  refine ⟨?_, ?_, ?_⟩
  · rw [List.map_append, List.nodup_append]
    refine ⟨hI.nodup.sublist ((List.filter_sublist).map _), by simp, ?_⟩
    intro a ha b hb
    simp at ha hb
    obtain ⟨q, ⟨_, hq⟩, rfl⟩ := ha
    rw [hb]; exact hq
  · intro e he
    rcases List.mem_append.mp he with he | he
    · exact hI.times e he
    · simp at he; subst he; exact Nat.le_refl _
  · intro a y b hl hkept hexp
    rcases snoc_split hl with ⟨_, h2, h3⟩ | ⟨b', h2, h3⟩
    · subst h2 h3
      exact ⟨_, ⟨k, instant m * 1000000, t'⟩, [], rfl, hk, Nat.le_refl _, ⟨m, hm, Int.le_refl _⟩, by simp⟩
    · subst h2
      have hkept' : KeptC o y b' := by
        rcases hkept with h | ⟨ks, h1, h2⟩
        · exact Or.inl h
        · exact Or.inr ⟨ks, h1, fun e he => h2 e (by simp [he])⟩
      by_cases hyk : y.1.key = some k
      · obtain ⟨m1, m2, hm1, hm2, hlt'⟩ := hlt a y b' h3 (by rw [hyk, hk]) hkept' (by omega)
        rw [hm] at hm2; cases hm2
        exact ⟨_, ⟨k, instant m * 1000000, t'⟩, [], rfl, hyk,
          hI.times y (by rw [h3]; simp), ⟨m1, hm1, by show _ ≤ instant m * 1000000; omega⟩, by simp⟩
      · obtain ⟨pre, r, post, hr, h1, h2, h4, h5⟩ := hI.ord a y b' h3 hkept' hexp
        have hrne : r.key ≠ k := fun h => hyk (by rw [h1, h])
        refine ⟨pre.filter (fun r => r.key != k), r, post.filter (fun r => r.key != k) ++ [⟨k, instant m * 1000000, t'⟩],
          ?_, h1, h2, h4, ?_⟩
        · rw [hr, List.filter_append, List.filter_cons]
          simp [hrne]
        · intro q hq
          rcases List.mem_append.mp hq with hq | hq
          · obtain ⟨h6, e, he, he'⟩ := h5 q (List.mem_filter.mp hq).1
            exact ⟨h6, e, by simp [he], he'⟩
          · simp at hq
            subst hq
            exact ⟨fun h => hyk h.symm, (x, t'), by simp, hk⟩

theorem command_seq (o : COpts) (now0 t0 : Nat) (ops : List (Op (Cmd K)))
    (hs : Sequential (command o) (init [] now0 t0) ops) :
    let s := run (command o) (init [] now0 t0) ops
    ∀ pre j x now t post, s.log = pre ++ .accepted j x now t :: post →
      InFlightC o x now t (recordings pre) := by
  have := seq_run (command o) [] now0 t0 (fun t r l => InvC o t r l) (fun x now t _ l => InFlightC o x now t l)
    ?_ ?_ ?_ ?_ ops hs
  · intro s pre j x now t post h
    obtain ⟨r, _, _, _, hj⟩ := this.2.2.2 pre j x now t post h
    exact hj
  · exact ⟨by simp, by simp, by simp⟩
  · intro t t' r l h ht
    exact ⟨h.nodup, fun e he => Nat.le_trans (h.times e he) ht, fun a y b h1 h2 h3 => h.ord a y b h1 h2 (by omega)⟩
  · intro now t r l x v r' h hc
    exact invC_check h hc
  · intro now t t' r l x r' h hj ht hi
    exact invC_insert h hj ht hi

/-- After any history: each remembered timestamp is that of a recording of the key; Interests that
passed are within the grace period. -/
theorem command_any (o : COpts) (now0 t0 : Nat) (ops : List (Op (Cmd K))) :
    let s := run (command o) (init [] now0 t0) ops
    (∀ r ∈ s.recs, ∃ e ∈ recordings s.log, e.1.key = some r.key ∧ ∃ m, e.1.time = some m ∧ r.ts = instant m * 1000000) ∧
    (∀ j x now t, Obs.accepted j x now t ∈ s.log → ∃ k m, x.key = some k ∧ x.time = some m ∧
      ((now : Int) - instant m * 1000000).natAbs ≤ o.grace) := by
  have := any_run (command o) ([] : List (CRec K)) now0 t0
    (fun _ recs l => ∀ r ∈ recs, ∃ e ∈ l, e.1.key = some r.key ∧ ∃ m, e.1.time = some m ∧ r.ts = instant m * 1000000)
    (fun x now _ => ∃ k m, x.key = some k ∧ x.time = some m ∧
      ((now : Int) - instant m * 1000000).natAbs ≤ o.grace) ?_ ?_ ?_ ?_ ops
  · exact ⟨this.1, this.2.2.1⟩
  · simp
  · intro t t' r l h _; exact h
  · intro now t recs l x v recs' h hc
    have hc : cmdCheck o now t recs x = (v, recs') := hc
    have hcl : ∀ r ∈ cleanup o t recs, ∃ e ∈ l, e.1.key = some r.key ∧ ∃ m, e.1.time = some m ∧ r.ts = instant m * 1000000 :=
      fun r hr => h r ((cleanup_sublist o t recs).subset hr)
    simp only [cmdCheck] at hc
    cases hm : x.time with
    | none => simp [hm] at hc; obtain ⟨rfl, rfl⟩ := hc; exact ⟨h, by simp⟩
    | some m =>
      simp only [hm] at hc
      cases hf : fromMs m with
      | none => simp [hf] at hc; obtain ⟨rfl, rfl⟩ := hc; exact ⟨h, by simp⟩
      | some t' =>
        cases hk : x.key with
        | none => simp [hf, hk] at hc; obtain ⟨rfl, rfl⟩ := hc; exact ⟨h, by simp⟩
        | some k =>
          have ht' := fromMs_some hf
          simp only [hf, hk] at hc
          split at hc
          · simp at hc; obtain ⟨rfl, rfl⟩ := hc; exact ⟨hcl, by simp⟩
          · rename_i hg
            have h0 : ∃ k' m', some k = some k' ∧ some m = some m' ∧
                ((now : Int) - instant m' * 1000000).natAbs ≤ o.grace := ⟨k, m, rfl, rfl, by rw [← ht']; omega⟩
            have hrr : recs' = cleanup o t recs := by
              split at hc
              · simp at hc; exact hc.2.symm
              · split at hc <;> simp at hc <;> exact hc.2.symm
            rw [hrr]
            exact ⟨hcl, fun _ => h0⟩
  · intro now t t' recs l x recs' h hj _ hi
    have hi : cmdInsert t' recs x = some recs' := hi
    simp only [cmdInsert] at hi
    obtain ⟨k, m, hk, hm, _⟩ := hj
    cases hf : fromMs m with
    | none => simp [hk, hm, hf] at hi
    | some v =>
      simp only [hk, hm, Option.bind_some, hf, Option.some.injEq] at hi
      subst hi
      intro r hr
      rcases List.mem_append.mp hr with hr | hr
      · obtain ⟨e, he, h'⟩ := h r (List.mem_filter.mp hr).1
        exact ⟨e, by simp [he], h'⟩
      · simp at hr
        subst hr
        exact ⟨(x, t'), by simp, hk, m, hm, fromMs_some hf⟩

end

/-! ### Clocks that advance together -/

/-- Without adjustments of the system clock, the two clocks keep their distance. -/
theorem clock_run {X R : Type} (P : Policy X R) (empty : R) (now0 t0 : Nat) (J : X → Nat → Prop)
    (hchk : ∀ now t r x r', P.check now t r x = (.pass, r') → J x now)
    (ops : List (Op X)) (hset : ∀ n, Op.setClock n ∉ ops) :
    let s := run P (init empty now0 t0) ops
    s.now + t0 = s.steady + now0 ∧
    (∀ p ∈ s.pend, p.t ≤ s.steady ∧ p.now + t0 = p.t + now0 ∧ J p.itm p.now) ∧
    (∀ j x now t, Obs.accepted j x now t ∈ s.log → now + t0 = t + now0 ∧ J x now) ∧
    (∀ e ∈ recordings s.log, ∃ now t, t ≤ e.2 ∧ now + t0 = t + now0 ∧ J e.1 now) := by
  induction ops using snocInd with
  | nil => simp [run, init, recordings]; omega
  | snoc ops op ih =>
    rw [run_snoc]
    have ih := ih (fun n hn => hset n (by simp [hn]))
    generalize run P (init empty now0 t0) ops = s at ih
    obtain ⟨hI, hJ, hacc, hrec⟩ := ih
    cases op with
    | arrive x =>
      rcases hc : P.check s.now s.steady s.recs x with ⟨v, r'⟩
      cases v with
      | pass =>
        have hj := hchk _ _ _ _ _ hc
        simp only [step, hc]
        rw [recordings_append, show recordings [Obs.checked s.next x s.now s.steady] = [] from rfl,
          List.append_nil]
        refine ⟨hI, ?_, by simpa using hacc, hrec⟩
        intro p hp'
        rcases List.mem_append.mp hp' with hp' | hp'
        · exact hJ p hp'
        · simp at hp'
          subst hp'
          exact ⟨Nat.le_refl _, hI, hj⟩
      | reject =>
        simp only [step, hc]
        rw [recordings_append, show recordings [Obs.rejected x] = [] from rfl, List.append_nil]
        exact ⟨hI, hJ, by simpa using hacc, hrec⟩
      | undef =>
        simp only [step, hc]
        rw [recordings_append, show recordings [(Obs.undefined : Obs X)] = [] from rfl, List.append_nil]
        exact ⟨hI, hJ, by simpa using hacc, hrec⟩
    | accept id =>
      simp only [step]
      cases hf : findPend s.pend id false with
      | none => exact ⟨hI, hJ, hacc, hrec⟩
      | some p =>
        obtain ⟨hpm, _, _⟩ := findPend_some hf
        simp only
        rw [recordings_append, show recordings [Obs.accepted id p.itm p.now p.t] = [] from rfl,
          List.append_nil]
        refine ⟨hI, ?_, ?_, hrec⟩
        · intro q hq
          obtain ⟨q', hq', e1, e2, e3, _⟩ := mem_markPend hq
          have := hJ q' hq'
          rw [e1, e2, e3]
          exact this
        · intro j x now t h
          rcases List.mem_append.mp h with h | h
          · exact hacc _ _ _ _ h
          · simp at h
            obtain ⟨_, rfl, rfl, rfl⟩ := h
            exact (hJ p hpm).2
    | record id =>
      simp only [step]
      cases hf : findPend s.pend id true with
      | none => exact ⟨hI, hJ, hacc, hrec⟩
      | some p =>
        obtain ⟨hpm, hid, _⟩ := findPend_some hf
        cases hi : P.insert s.steady s.recs p.itm with
        | none =>
          simp only [hi]
          exact ⟨hI, fun p hp => hJ p (mem_dropPend hp), hacc, hrec⟩
        | some r' =>
          simp only [hi]
          rw [recordings_append,
            show recordings [Obs.recorded id p.itm s.steady] = [(p.itm, s.steady)] from rfl]
          refine ⟨hI, fun p hp => hJ p (mem_dropPend hp), by simpa using hacc, ?_⟩
          intro e he
          rcases List.mem_append.mp he with he | he
          · exact hrec e he
          · simp at he
            subst he
            exact ⟨p.now, p.t, (hJ p hpm).1, (hJ p hpm).2⟩
    | fail id => exact ⟨hI, fun p hp => hJ p (mem_dropPend hp), hacc, hrec⟩
    | throw id => exact ⟨hI, fun p hp => hJ p (mem_dropPend hp), hacc, hrec⟩
    | setClock n => exact absurd (by simp) (hset n)
    | advance dt =>
      refine ⟨?_, fun p hp => ⟨?_, (hJ p hp).2⟩, hacc, hrec⟩
      · show s.now + dt + t0 = s.steady + dt + now0
        omega
      · exact Nat.le_trans (hJ p hp).1 (Nat.le_add_right _ _)

end Ndn.Replay

namespace Ndn.Replay
open Spec

/-- Identifiers in flight are distinct. -/
theorem ids_run {X R : Type} (P : Policy X R) (empty : R) (now0 t0 : Nat) (ops : List (Op X)) :
    let s := run P (init empty now0 t0) ops
    (s.pend.map Pend.id).Nodup ∧ ∀ p ∈ s.pend, p.id < s.next := by
  induction ops using snocInd with
  | nil => simp [run, init]
  | snoc ops op ih =>
    rw [run_snoc]
    generalize run P (init empty now0 t0) ops = s at ih
    obtain ⟨h1, h2⟩ := ih
    have hdrop : ∀ id, ((dropPend s.pend id).map Pend.id).Nodup ∧ ∀ p ∈ dropPend s.pend id, p.id < s.next :=
      fun id => ⟨h1.sublist (List.filter_sublist.map _), fun p hp => h2 p (mem_dropPend hp)⟩
    cases op with
    | arrive x =>
      rcases hc : P.check s.now s.steady s.recs x with ⟨v, r'⟩
      cases v <;> simp only [step, hc]
      · refine ⟨?_, ?_⟩
        · rw [List.map_append, List.nodup_append]
          refine ⟨h1, by simp, ?_⟩
          intro a ha b hb
          simp only [List.mem_map] at ha
          obtain ⟨p, hp, rfl⟩ := ha
          simp at hb
          have := h2 p hp
          omega
        · intro p hp
          rcases List.mem_append.mp hp with hp | hp
          · have := h2 p hp; omega
          · simp at hp; subst hp; exact Nat.lt_succ_self _
      · exact ⟨h1, h2⟩
      · exact ⟨h1, h2⟩
    | accept id =>
      simp only [step]
      cases hf : findPend s.pend id false with
      | none => exact ⟨h1, h2⟩
      | some p =>
        simp only
        refine ⟨?_, ?_⟩
        · have : (markPend s.pend id).map Pend.id = s.pend.map Pend.id := by
            simp only [markPend, List.map_map]
            apply List.map_congr_left
            intro q _
            simp only [Function.comp]
            split <;> rfl
          rw [this]; exact h1
        · intro q hq
          obtain ⟨q', hq', _, _, _, e⟩ := mem_markPend hq
          rw [e]; exact h2 q' hq'
    | record id =>
      simp only [step]
      cases hf : findPend s.pend id true with
      | none => exact ⟨h1, h2⟩
      | some p =>
        cases hi : P.insert s.steady s.recs p.itm <;> simp only [hi] <;> exact hdrop id
    | fail id => exact hdrop id
    | throw id => exact hdrop id
    | setClock n => exact ⟨h1, h2⟩
    | advance dt => exact ⟨h1, h2⟩

/-- An acceptance whose callback returns is recorded at once. -/
theorem accept_record {X R : Type} (P : Policy X R) (empty : R) (now0 t0 : Nat) (ops : List (Op X)) (id : Nat) (x : X)
    (now t : Nat) (hins : ∀ t r, (P.insert t r x).isSome = true) :
    let s := run P (init empty now0 t0) ops
    (run P (init empty now0 t0) (ops ++ [.accept id])).log = s.log ++ [.accepted id x now t] →
    (run P (init empty now0 t0) (ops ++ [.accept id, .record id])).log =
      s.log ++ [.accepted id x now t, .recorded id x s.steady] := by
  intro s h
  have e : ops ++ [Op.accept id, .record id] = (ops ++ [.accept id]) ++ [.record id] := by simp
  rw [e, run_snoc, run_snoc]
  rw [run_snoc] at h
  obtain ⟨hn, _⟩ := ids_run P empty now0 t0 ops
  have hs : s = run P (init empty now0 t0) ops := rfl
  rw [← hs] at h hn ⊢
  clear_value s
  cases hf : findPend s.pend id false with
  | none => simp [step, hf] at h
  | some p =>
    simp only [step, hf] at h ⊢
    have h' : Obs.accepted id p.itm p.now p.t = Obs.accepted id x now t := by simpa using h
    obtain ⟨hpm, hid, _⟩ := findPend_some hf
    have hfind : findPend (markPend s.pend id) id true = some { p with accepted := true } := by
      clear h h' hs hf
      generalize s.pend = l at hpm hn
      induction l with
      | nil => simp at hpm
      | cons q qs ih =>
        simp only [List.map_cons, List.nodup_cons] at hn
        simp only [List.mem_cons] at hpm
        simp only [findPend, markPend, List.map_cons]
        by_cases hq : q.id = id
        · have : q = p := by
            rcases hpm with rfl | hpm
            · rfl
            · exfalso; apply hn.1; rw [hq, ← hid]; exact List.mem_map_of_mem hpm
          subst this
          simp [hq]
        · rcases hpm with rfl | hpm
          · exact absurd hid hq
          · rw [List.find?_cons_of_neg (by simp [hq])]
            exact ih hpm hn.2
    have hx : p.itm = x := by cases h'; rfl
    cases hi : P.insert s.steady s.recs x with
    | none => have := hins s.steady s.recs; simp [hi] at this
    | some r' =>
      simp only [hfind, hx, hi]
      cases h'
      simp

end Ndn.Replay
