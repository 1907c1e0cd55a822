import Verif.Replay.Lemmas

/-! Invariants of the records of `ValidationPolicySignedInterest`. -/
namespace Ndn.Replay
open Spec

theorem fromMs_some {n : Nat} {v : Int} (h : fromMs n = some v) : v = instant n * 1000000 := by
  have : fromMs n = if int64 (instant n * 1000000) then some (instant n * 1000000) else none := rfl
  rw [this] at h
  split at h
  · simp at h; exact h.symm
  · simp at h

theorem nodup_subset_length {α : Type} [DecidableEq α] : ∀ {l m : List α}, l.Nodup → (∀ a ∈ l, a ∈ m) →
    l.length ≤ m.length
  | [], _, _, _ => Nat.zero_le _
  | a :: l, m, hn, hs => by
    have ha : a ∈ m := hs a (by simp)
    have hn' := List.nodup_cons.mp hn
    have := nodup_subset_length (m := m.erase a) hn'.2 (fun b hb => by
      have hne : b ≠ a := by rintro rfl; exact hn'.1 hb
      exact (List.mem_erase_of_ne hne).mpr (hs b (by simp [hb])))
    rw [List.length_erase_of_mem ha] at this
    have : 0 < m.length := List.length_pos_of_mem ha
    simp; omega

variable {K : Type} [DecidableEq K]

theorem findRec_some {recs : List (Rec K)} {k : K} {r : Rec K} (h : findRec recs k = some r) :
    r ∈ recs ∧ r.key = k := by
  have h1 := List.mem_of_find?_eq_some h
  have h2 := List.find?_some h
  simp at h2
  exact ⟨h1, h2⟩

theorem findRec_none {recs : List (Rec K)} {k : K} (h : findRec recs k = none) : ∀ r ∈ recs, r.key ≠ k := by
  intro r hr
  have := List.find?_eq_none.mp h r hr
  simpa using this

theorem rec_unique {recs : List (Rec K)} (hn : (recs.map Rec.key).Nodup) {r r' : Rec K} (h : r ∈ recs)
    (h' : r' ∈ recs) (hk : r.key = r'.key) : r = r' := by
  induction recs with
  | nil => simp at h
  | cons q qs ih =>
    simp at hn h h'
    rcases h with rfl | h <;> rcases h' with rfl | h'
    · rfl
    · exact absurd hk.symm (hn.1 _ h')
    · exact absurd hk (hn.1 _ h)
    · exact ih hn.2 h h'

theorem findRec_of_mem {recs : List (Rec K)} (hn : (recs.map Rec.key).Nodup) {r : Rec K} (h : r ∈ recs) :
    findRec recs r.key = some r := by
  cases hf : findRec recs r.key with
  | none => exact absurd rfl (findRec_none hf r h)
  | some r' =>
    obtain ⟨h1, h2⟩ := findRec_some hf
    rw [rec_unique hn h1 h h2]

/-- The refreshed record. -/
def fresh (o : Opts) (t : Nat) (ts : Option Int) (x : Itm K) (r : Rec K) : Rec K :=
  { updRec o ts x r with last := t }

theorem fresh_key (o : Opts) (t : Nat) (ts : Option Int) (x : Itm K) (r : Rec K) : (fresh o t ts x r).key = r.key := rfl

theorem refresh_shape (o : Opts) (t : Nat) (ts : Option Int) (x : Itm K) (k : K) :
    ∀ (recs : List (Rec K)) (r : Rec K), findRec recs k = some r →
    ∃ pre post, recs = pre ++ r :: post ∧ (∀ q ∈ pre, q.key ≠ k) ∧
      (refresh (updRec o ts x) t k recs = pre ++ fresh o t ts x r :: post ∨
        refresh (updRec o ts x) t k recs = pre ++ (post ++ [fresh o t ts x r])) ∧
      ((∀ q ∈ post, q.last < t) → refresh (updRec o ts x) t k recs = pre ++ (post ++ [fresh o t ts x r]))
  | [], r, h => by simp [findRec] at h
  | q :: qs, r, h => by
    by_cases hk : q.key = k
    · have hr : q = r := by simpa [findRec, hk] using h
      subst hr
      refine ⟨[], qs, rfl, by simp, ?_⟩
      cases qs with
      | nil => simp [refresh, hk, fresh]
      | cons q2 qs =>
        simp only [refresh, hk, if_true, List.nil_append]
        refine ⟨?_, ?_⟩
        · split
          · left; rfl
          · right; rfl
        · intro hl
          have : ¬ q2.last ≥ t := by have := hl q2 (by simp); omega
          rw [if_neg this]; rfl
    · have h' : findRec qs k = some r := by simpa [findRec, hk] using h
      obtain ⟨pre, post, e, h1, h2, h3⟩ := refresh_shape o t ts x k qs r h'
      refine ⟨q :: pre, post, by simp [e], ?_, ?_, ?_⟩
      · intro p hp; simp at hp; rcases hp with rfl | hp; exact hk; exact h1 p hp
      · simp only [refresh, hk, if_false, List.cons_append]
        rcases h2 with h2 | h2
        · left; rw [h2]
        · right; rw [h2]
      · intro hl
        simp only [refresh, hk, if_false, List.cons_append]
        rw [h3 hl]

/-- The record of a new key. -/
def newRec (o : Opts) (t : Nat) (k : K) (ts : Option Int) (x : Itm K) : Rec K :=
  ⟨k, ts, x.seq, pushNonce o x.nonce [], t⟩

theorem upsert_perm (o : Opts) (t : Nat) (k : K) (ts : Option Int) (x : Itm K) (recs : List (Rec K))
    (hn : (recs.map Rec.key).Nodup) :
    ∃ r', r'.key = k ∧ r'.last = t ∧ (upsert o t k ts x recs).Perm (recs.filter (fun r => r.key != k) ++ [r']) ∧
      ((findRec recs k = none ∧ r' = newRec o t k ts x) ∨
        ∃ r, findRec recs k = some r ∧ r' = fresh o t ts x r) ∧
      ((∀ q ∈ recs, q.last < t) → upsert o t k ts x recs = recs.filter (fun r => r.key != k) ++ [r']) := by
  cases hf : findRec recs k with
  | none =>
    have hall : recs.filter (fun r => r.key != k) = recs := by
      rw [List.filter_eq_self]
      intro r hr
      simpa using findRec_none hf r hr
    refine ⟨newRec o t k ts x, rfl, rfl, ?_, Or.inl ⟨rfl, rfl⟩, ?_⟩
    · rw [hall]; simp [upsert, hf, newRec]
    · intro _; rw [hall]; simp [upsert, hf, newRec]
  | some r =>
    obtain ⟨pre, post, e, h1, h2, h3⟩ := refresh_shape o t ts x k recs r hf
    have hrk := (findRec_some hf).2
    have hpost : ∀ q ∈ post, q.key ≠ k := by
      intro q hq hk
      rw [e] at hn
      simp only [List.map_append, List.map_cons, List.nodup_append, List.nodup_cons] at hn
      apply hn.2.1.1
      rw [hrk, ← hk]
      exact List.mem_map_of_mem hq
    have hfil : recs.filter (fun r => r.key != k) = pre ++ post := by
      rw [e, List.filter_append, List.filter_cons]
      rw [List.filter_eq_self.mpr (by intro q hq; simpa using h1 q hq),
        List.filter_eq_self.mpr (by intro q hq; simpa using hpost q hq)]
      simp [hrk]
    refine ⟨fresh o t ts x r, by rw [fresh_key, hrk], rfl, ?_, Or.inr ⟨r, rfl, rfl⟩, ?_⟩
    · rw [hfil]
      have : upsert o t k ts x recs = refresh (updRec o ts x) t k recs := by simp [upsert, hf]
      rw [this]
      rcases h2 with h2 | h2
      · rw [h2]
        exact List.perm_middle.trans (List.perm_append_singleton _ _).symm
      · rw [h2]; simp
    · intro hl
      have : upsert o t k ts x recs = refresh (updRec o ts x) t k recs := by simp [upsert, hf]
      rw [this, hfil, h3 (fun q hq => hl q (by rw [e]; simp [hq]))]
      simp

theorem limit_sublist (o : Opts) (recs : List (Rec K)) : (limit o recs).Sublist recs := by
  simp only [limit]
  split
  · exact List.drop_sublist _ _
  · exact List.Sublist.refl _

/-- Records made of the recordings: what the record `r` remembers of a recording `y` with the
recordings `b` after it. -/
def Bound (o : Opts) (r : Rec K) (y : Itm K) (b : List (Itm K × Nat)) : Prop :=
  (o.valTs = true → ∃ m ts, y.time = some m ∧ r.ts = some ts ∧ instant m * 1000000 ≤ ts) ∧
  (o.valSeq = true → ∃ m n, y.seq = some m ∧ r.seq = some n ∧ m ≤ n) ∧
  (o.valNonce = true → ∃ n, y.nonce = some n ∧
    (o.maxNonce < 0 ∨ (countKey y.key b : Int) < o.maxNonce →
      ∃ pre post, r.nonces = pre ++ n :: post ∧ post.length ≤ countKey y.key b))

structure InvS (o : Opts) (t : Nat) (recs : List (Rec K)) (l : List (Itm K × Nat)) : Prop where
  nodup : (recs.map Rec.key).Nodup
  times : ∀ e ∈ l, e.2 ≤ t
  last : ∀ r ∈ recs, ∃ e ∈ l, e.2 = r.last
  ord : ∀ a y b, l = a ++ y :: b → Kept Itm.key o.maxRec a y b →
    ∃ pre r post, recs = pre ++ r :: post ∧ y.1.key = some r.key ∧ Bound o r y.1 b ∧
      (o.maxRec ≥ 0 → ∀ q ∈ post, some q.key ≠ y.1.key ∧ ∃ e ∈ b, e.1.key = some q.key)

/-- What the check of an Interest in flight established. -/
def InFlight (o : Opts) (x : Itm K) (now : Nat) (recs : List (Rec K)) (l : List (Itm K × Nat)) : Prop :=
  check o now recs x = .pass ∧
  (x.v03 = true → ∀ a y b, l = a ++ y :: b → y.1.key = x.key → Kept Itm.key o.maxRec a y b →
    (o.valTs = true → ∃ m m', y.1.time = some m ∧ x.time = some m' ∧ instant m < instant m') ∧
    (o.valSeq = true → ∃ n n', y.1.seq = some n ∧ x.seq = some n' ∧ n < n') ∧
    (o.valNonce = true → (o.maxNonce < 0 ∨ (countKey y.1.key b : Int) < o.maxNonce) →
      ∃ n n', y.1.nonce = some n ∧ x.nonce = some n' ∧ n ≠ n'))

/-- What a passed check says. -/
theorem check_pass {o : Opts} {now : Nat} {recs : List (Rec K)} {x : Itm K} (h : check o now recs x = .pass)
    (hv : x.v03 = true) :
    ∃ k ts, x.key = some k ∧ timeOf x.time = some ts ∧ checkTs o now (findRec recs k) ts = .pass ∧
      checkSeq o (findRec recs k) x.seq = .pass ∧ checkNonce o (findRec recs k) x.nonce = .pass := by
  simp only [check, hv, Bool.not_true, Bool.false_eq_true, if_false] at h
  cases hk : x.key with
  | none => simp [hk] at h
  | some k =>
    cases ht : timeOf x.time with
    | none => simp [hk, ht] at h
    | some ts =>
      simp only [hk, ht] at h
      refine ⟨k, ts, rfl, rfl, ?_⟩
      cases h1 : checkTs o now (findRec recs k) ts <;> simp only [h1] at h <;> try contradiction
      cases h2 : checkSeq o (findRec recs k) x.seq <;> simp only [h2] at h <;> try contradiction
      exact ⟨rfl, rfl, h⟩

theorem timeOf_some {x : Option Nat} {t : Int} (h : timeOf x = some (some t)) :
    ∃ m, x = some m ∧ t = instant m * 1000000 := by
  cases x with
  | none => simp [timeOf] at h
  | some m =>
    simp [timeOf] at h
    exact ⟨m, rfl, fromMs_some h⟩

theorem checkTs_pass {o : Opts} {now : Nat} {old : Option (Rec K)} {ts : Option Int}
    (h : checkTs o now old ts = .pass) (hv : o.valTs = true) :
    ∃ t, ts = some t ∧ ((now : Int) - t).natAbs ≤ o.grace ∧ (∀ r t', old = some r → r.ts = some t' → t' < t) := by
  simp only [checkTs, hv, if_true] at h
  cases ts with
  | none => simp at h
  | some t =>
    simp only at h
    split at h
    · contradiction
    · split at h
      · contradiction
      · rename_i h1 h2
        refine ⟨t, rfl, by omega, ?_⟩
        rintro r t' rfl hr
        simp only [Option.bind_some, hr] at h
        split at h
        · contradiction
        · omega

theorem checkSeq_pass {o : Opts} {old : Option (Rec K)} {seq : Option Nat}
    (h : checkSeq o old seq = .pass) (hv : o.valSeq = true) :
    ∃ n, seq = some n ∧ (∀ r n', old = some r → r.seq = some n' → n' < n) := by
  simp only [checkSeq, hv, if_true] at h
  cases seq with
  | none => simp at h
  | some n =>
    refine ⟨n, rfl, ?_⟩
    rintro r n' rfl hr
    simp only [Option.bind_some, hr] at h
    split at h
    · contradiction
    · omega

theorem checkNonce_pass {o : Opts} {old : Option (Rec K)} {nonce : Option (List UInt8)}
    (h : checkNonce o old nonce = .pass) (hv : o.valNonce = true) :
    ∃ n, nonce = some n ∧ (∀ r, old = some r → n ∉ r.nonces) := by
  simp only [checkNonce, hv, if_true] at h
  cases nonce with
  | none => simp at h
  | some n =>
    refine ⟨n, rfl, ?_⟩
    rintro r rfl hm
    simp [hm] at h

theorem inFlight_of_check {o : Opts} {t now : Nat} {recs : List (Rec K)} {l : List (Itm K × Nat)} {x : Itm K}
    (hI : InvS o t recs l) (h : check o now recs x = .pass) : InFlight o x now recs l := by
  refine ⟨h, ?_⟩
  intro hv a y b hl hk hkept
  obtain ⟨k, ts, hxk, hts, h1, h2, h3⟩ := check_pass h hv
  obtain ⟨pre, r, post, hr, hyk, hb, _⟩ := hI.ord a y b hl hkept
  have hrk : r.key = k := by rw [hk, hxk] at hyk; simpa using hyk.symm
  have hf : findRec recs k = some r := by
    rw [← hrk]; exact findRec_of_mem hI.nodup (by rw [hr]; simp)
  rw [hf] at h1 h2 h3
  refine ⟨?_, ?_, ?_⟩
  · intro hvt
    obtain ⟨m, rts, hm, hrts, hle⟩ := hb.1 hvt
    obtain ⟨t', rfl, _, hlt⟩ := checkTs_pass h1 hvt
    obtain ⟨m', hm', rfl⟩ := timeOf_some hts
    have := hlt r rts rfl hrts
    exact ⟨m, m', hm, hm', by omega⟩
  · intro hvs
    obtain ⟨m, n, hm, hn, hle⟩ := hb.2.1 hvs
    obtain ⟨n', hn', hlt⟩ := checkSeq_pass h2 hvs
    have := hlt r n rfl hn
    exact ⟨m, n', hm, hn', by omega⟩
  · intro hvn hc
    obtain ⟨n, hn, hin⟩ := hb.2.2 hvn
    obtain ⟨p1, p2, hp, _⟩ := hin hc
    obtain ⟨n', hn', hni⟩ := checkNonce_pass h3 hvn
    refine ⟨n, n', hn, hn', ?_⟩
    rintro rfl
    exact hni r rfl (by rw [hp]; simp)

/-- The nonce pushed last is there, unless the limit is zero. -/
theorem pushNonce_last {o : Opts} {n : List UInt8} {l : List (List UInt8)} (hv : o.valNonce = true)
    (h0 : o.maxNonce < 0 ∨ 0 < o.maxNonce) (hn : n ∉ l) : ∃ pre, pushNonce o (some n) l = pre ++ [n] := by
  have h1 : (o.maxNonce != 0) = true := by simp; omega
  simp only [pushNonce, hv, h1, Bool.and_self, if_true]
  have h2 : l.contains n = false := by simpa using hn
  simp only [h2, Bool.false_eq_true, if_false]
  split
  · rename_i h3
    simp at h3
    cases l with
    | nil => simp at h3; omega
    | cons a l => exact ⟨l, by simp⟩
  · exact ⟨l, rfl⟩

/-- A nonce with fewer nonces behind it than the limit stays after a push. -/
theorem pushNonce_keep {o : Opts} {n : List UInt8} {pre post : List (List UInt8)} {new : Option (List UInt8)}
    {c : Nat} (hc : post.length ≤ c) (h : o.maxNonce < 0 ∨ ((c + 1 : Nat) : Int) < o.maxNonce) :
    ∃ pre' post', pushNonce o new (pre ++ n :: post) = pre' ++ n :: post' ∧ post'.length ≤ c + 1 := by
  simp only [pushNonce]
  cases new with
  | none => exact ⟨pre, post, rfl, by omega⟩
  | some m =>
    simp only
    split
    · split
      · split
        · rename_i h3
          simp at h3
          cases pre with
          | nil => simp at h3; omega
          | cons a pre => exact ⟨pre, post, by simp, by omega⟩
        · exact ⟨pre, post, rfl, by omega⟩
      · split
        · rename_i h3
          simp at h3
          cases pre with
          | nil => simp at h3; omega
          | cons a pre => exact ⟨pre, post ++ [m], by simp, by simp; omega⟩
        · exact ⟨pre, post ++ [m], by simp, by simp; omega⟩
    · exact ⟨pre, post, rfl, by omega⟩

theorem kept_init {X : Type} {key : X → Option K} {m : Int} {a b : List (X × Nat)} {y e : X × Nat}
    (h : Kept key m a y (b ++ [e])) : Kept key m a y b := by
  rcases h with h | ⟨⟨ks, h1, h2⟩, h3⟩
  · exact Or.inl h
  · refine Or.inr ⟨⟨ks, h1, fun e' he' => h2 e' (by simp [he'])⟩, ?_⟩
    have : Ticking ((a ++ y :: b) ++ [e]) := by simpa using h3
    exact (List.pairwise_append.mp this).1

/-- Recording keeps the invariant. -/
theorem invS_insert {o : Opts} {t now : Nat} {recs recs' : List (Rec K)} {l : List (Itm K × Nat)} {x : Itm K}
    (hI : InvS o t recs l) (hJ : InFlight o x now recs l) (hi : insertRecord o t recs x = some recs') :
    InvS o t recs' (l ++ [(x, t)]) := by
  simp only [insertRecord] at hi
  split at hi
  case isFalse => contradiction
  rename_i hcond
  simp at hcond
  obtain ⟨hv, hmax⟩ := hcond
  obtain ⟨hck, hfl⟩ := hJ
  obtain ⟨k, ts, hxk, hts, c1, c2, c3⟩ := check_pass hck hv
  simp only [hxk, hts, Option.some.injEq] at hi
  subst hi
  obtain ⟨r', hrk, hrl, hperm, hcase, hordered⟩ := upsert_perm o t k ts x recs hI.nodup
  have hnodupF : ((recs.filter (fun r => r.key != k) ++ [r']).map Rec.key).Nodup := by
    rw [List.map_append, List.nodup_append]
    refine ⟨hI.nodup.sublist ((List.filter_sublist).map _), by simp, ?_⟩
    intro a ha b hb
    simp at ha hb
    obtain ⟨q, ⟨_, hq⟩, rfl⟩ := ha
    rw [hb, hrk]; exact hq
  have hnodupU : ((upsert o t k ts x recs).map Rec.key).Nodup := (hperm.map _).nodup_iff.mpr hnodupF
  have hsub := limit_sublist o (upsert o t k ts x recs)
  -- what the record of `x` remembers of `x` and of the recordings before
  have hself : Bound o r' x [] := by
    refine ⟨?_, ?_, ?_⟩
    · intro hvt
      obtain ⟨t', rfl, _, _⟩ := checkTs_pass c1 hvt
      obtain ⟨m, hm, rfl⟩ := timeOf_some hts
      refine ⟨m, _, hm, ?_, Int.le_refl _⟩
      rcases hcase with ⟨_, rfl⟩ | ⟨r, _, rfl⟩ <;> simp [newRec, fresh, updRec]
    · intro hvs
      obtain ⟨n, hn, _⟩ := checkSeq_pass c2 hvs
      refine ⟨n, n, hn, ?_, Nat.le_refl _⟩
      rcases hcase with ⟨_, rfl⟩ | ⟨r, _, rfl⟩ <;> simp [newRec, fresh, updRec, hn]
    · intro hvn
      obtain ⟨n, hn, hni⟩ := checkNonce_pass c3 hvn
      refine ⟨n, hn, ?_⟩
      intro hlim
      have h0 : o.maxNonce < 0 ∨ 0 < o.maxNonce := by
        rcases hlim with h | h
        · exact Or.inl h
        · right; simp [countKey] at h; exact h
      rcases hcase with ⟨_, rfl⟩ | ⟨r, hr, rfl⟩
      · obtain ⟨pre, hp⟩ := pushNonce_last hvn h0 (n := n) (l := []) (by simp)
        exact ⟨pre, [], by simp [newRec, hn, hp], by simp⟩
      · obtain ⟨pre, hp⟩ := pushNonce_last hvn h0 (hni r hr)
        exact ⟨pre, [], by simp [fresh, updRec, hn, hp], by simp⟩
  have hsame : ∀ a y b, l = a ++ y :: b → y.1.key = some k → Kept Itm.key o.maxRec a y b →
      Bound o r' y.1 (b ++ [(x, t)]) := by
    intro a y b hl hyk hkept
    obtain ⟨pre, r, post, hr, hyr, hb, _⟩ := hI.ord a y b hl hkept
    have hrk' : r.key = k := by rw [hyk] at hyr; simpa using hyr.symm
    have hf : findRec recs k = some r := by
      rw [← hrk']; exact findRec_of_mem hI.nodup (by rw [hr]; simp)
    obtain ⟨r2, hr2, hr'⟩ : ∃ r2, findRec recs k = some r2 ∧ r' = fresh o t ts x r2 := by
      rcases hcase with ⟨h, _⟩ | h
      · rw [hf] at h; cases h
      · exact h
    rw [hf] at hr2; cases hr2
    have hcnt : countKey y.1.key (b ++ [(x, t)]) = countKey y.1.key b + 1 := by
      simp [countKey, hxk, hyk]
    obtain ⟨f1, f2, f3⟩ := hfl hv a y b hl (by rw [hyk, hxk]) hkept
    rw [hr']
    refine ⟨?_, ?_, ?_⟩
    · intro hvt
      obtain ⟨m, m', hm, hm', hlt⟩ := f1 hvt
      obtain ⟨t', rfl, _, _⟩ := checkTs_pass c1 hvt
      obtain ⟨m2, hm2, rfl⟩ := timeOf_some hts
      rw [hm'] at hm2; cases hm2
      exact ⟨m, instant m' * 1000000, hm, by simp [fresh, updRec], by omega⟩
    · intro hvs
      obtain ⟨n, n', hn, hn', hlt⟩ := f2 hvs
      exact ⟨n, n', hn, by simp [fresh, updRec, hn'], by omega⟩
    · intro hvn
      obtain ⟨n, hn, hin⟩ := hb.2.2 hvn
      refine ⟨n, hn, ?_⟩
      rw [hcnt]
      intro hlim
      obtain ⟨p1, p2, hp, hlen⟩ := hin (by rcases hlim with h | h; exact Or.inl h; right; omega)
      obtain ⟨p1', p2', hp', hlen'⟩ := pushNonce_keep (n := n) (pre := p1) (new := x.nonce) hlen hlim
      exact ⟨p1', p2', by simp [fresh, updRec, hp, hp'], hlen'⟩
  have hother : ∀ (y : Itm K × Nat) (b : List (Itm K × Nat)) (r : Rec K), y.1.key ≠ some k → Bound o r y.1 b →
      Bound o r y.1 (b ++ [(x, t)]) := by
    intro y b r hyk hb
    have hcnt : countKey y.1.key (b ++ [(x, t)]) = countKey y.1.key b := by
      have : ((some k : Option K) == y.1.key) = false := by
        rw [beq_eq_false_iff_ne]; exact fun h => hyk h.symm
      simp [countKey, hxk, this]
    simp only [Bound, hcnt]
    exact hb
  have hlast : ∀ r ∈ upsert o t k ts x recs, ∃ e ∈ l ++ [(x, t)], e.2 = r.last := by
    intro r hr
    have := hperm.mem_iff.mp hr
    rcases List.mem_append.mp this with h | h
    · obtain ⟨e, he, he'⟩ := hI.last r (List.mem_filter.mp h).1
      exact ⟨e, by simp [he], he'⟩
    · simp at h
      subst h
      exact ⟨(x, t), by simp, hrl.symm⟩
  refine ⟨hnodupU.sublist (hsub.map _), ?_, fun r hr => hlast r (hsub.subset hr), ?_⟩
  · intro e he
    rcases List.mem_append.mp he with he | he
    · exact hI.times e he
    · simp at he; subst he; exact Nat.le_refl _
  · intro a y b hl hkept
    -- without a limit the order does not matter
    by_cases hunl : o.maxRec < 0
    · have hlim : limit o (upsert o t k ts x recs) = upsert o t k ts x recs := by
        have : (decide (o.maxRec ≥ 0)) = false := by simp; omega
        simp [limit, this]
      rw [hlim]
      have hr'mem : r' ∈ upsert o t k ts x recs := hperm.mem_iff.mpr (by simp)
      have fin : ∀ r, r ∈ upsert o t k ts x recs → y.1.key = some r.key → Bound o r y.1 b →
          ∃ pre r post, upsert o t k ts x recs = pre ++ r :: post ∧ y.1.key = some r.key ∧ Bound o r y.1 b ∧
            (o.maxRec ≥ 0 → ∀ q ∈ post, some q.key ≠ y.1.key ∧ ∃ e ∈ b, e.1.key = some q.key) := by
        intro r hr hk hb
        obtain ⟨pre, post, e⟩ := List.append_of_mem hr
        exact ⟨pre, r, post, e, hk, hb, fun h => by omega⟩
      rcases snoc_split hl with ⟨_, h2, h3⟩ | ⟨b', h2, h3⟩
      · subst h2 h3
        exact fin r' hr'mem (by rw [hrk]; exact hxk) hself
      · subst h2
        by_cases hyk : y.1.key = some k
        · exact fin r' hr'mem (by rw [hrk]; exact hyk) (hsame a y b' h3 hyk (kept_init hkept))
        · obtain ⟨pre, r, post, hr, hyr, hb, _⟩ := hI.ord a y b' h3 (kept_init hkept)
          refine fin r ?_ hyr (hother y b' r hyk hb)
          apply hperm.mem_iff.mpr
          simp only [List.mem_append, List.mem_filter]
          left
          refine ⟨by rw [hr]; simp, ?_⟩
          simp only [bne_iff_ne, ne_eq]
          intro h
          exact hyk (by rw [hyr, h])
    · -- with a limit, the refreshed record is at the end
      obtain ⟨⟨ks, hks, hksm⟩, htick⟩ : FewOthers Itm.key o.maxRec (y.1.key) b ∧ Ticking (a ++ y :: b) := by
        rcases hkept with h | h
        · exact absurd h hunl
        · exact h
      have hlt : ∀ q ∈ recs, q.last < t := by
        intro q hq
        obtain ⟨e, he, he'⟩ := hI.last q hq
        rw [← hl] at htick
        have := (List.pairwise_append.mp htick).2.2 e he (x, t) (by simp)
        rw [← he']; exact this
      have hU := hordered hlt
      rw [hU]
      have hend : ∀ yy : Itm K, Bound o r' yy b → yy.key = some k →
          ∃ pre r post, limit o (recs.filter (fun r => r.key != k) ++ [r']) = pre ++ r :: post ∧
            yy.key = some r.key ∧ Bound o r yy b ∧
            (o.maxRec ≥ 0 → ∀ q ∈ post, some q.key ≠ yy.key ∧ ∃ e ∈ b, e.1.key = some q.key) := by
        intro yy hb hyk
        simp only [limit]
        split
        · rename_i h
          simp at h
          cases hF : recs.filter (fun r => r.key != k) with
          | nil => rw [hF] at h; simp at h; omega
          | cons f fs => exact ⟨fs, r', [], by simp, by rw [hrk]; exact hyk, hb, by simp⟩
        · exact ⟨_, r', [], rfl, by rw [hrk]; exact hyk, hb, by simp⟩
      rcases snoc_split hl with ⟨_, h2, h3⟩ | ⟨b', h2, h3⟩
      · subst h2 h3
        exact hend x hself hxk
      · subst h2
        by_cases hyk : y.1.key = some k
        · exact hend y.1 (hsame a y b' h3 hyk (kept_init hkept)) hyk
        · obtain ⟨pre, r, post, hr, hyr, hb, hpo⟩ := hI.ord a y b' h3 (kept_init hkept)
          have hrne : r.key ≠ k := fun h => hyk (by rw [hyr, h])
          have hF : recs.filter (fun r => r.key != k) =
              pre.filter (fun r => r.key != k) ++ r :: post.filter (fun r => r.key != k) := by
            rw [hr, List.filter_append, List.filter_cons]
            simp [hrne]
          have hpo' : ∀ q ∈ post.filter (fun r => r.key != k) ++ [r'],
              some q.key ≠ y.1.key ∧ ∃ e ∈ b' ++ [(x, t)], e.1.key = some q.key := by
            intro q hq
            rcases List.mem_append.mp hq with hq | hq
            · obtain ⟨h1, e, he, he'⟩ := hpo (by omega) q (List.mem_filter.mp hq).1
              exact ⟨h1, e, by simp [he], he'⟩
            · simp at hq
              subst hq
              refine ⟨by rw [hrk]; exact fun h => hyk h.symm, (x, t), by simp, by rw [hrk]; exact hxk⟩
          rw [hF]
          simp only [limit]
          split
          · rename_i h
            simp at h
            cases hpre : pre.filter (fun r => r.key != k) with
            | nil =>
              exfalso
              have hnd : ((post.filter (fun r => r.key != k) ++ [r']).map Rec.key).Nodup := by
                have := hnodupF
                rw [hF, hpre] at this
                simp only [List.nil_append, List.cons_append, List.map_cons, List.nodup_cons] at this
                exact this.2
              have hle := nodup_subset_length (m := ks) hnd (by
                intro k' hk'
                simp only [List.mem_map] at hk'
                obtain ⟨q, hq, rfl⟩ := hk'
                obtain ⟨hq1, e, he, he'⟩ := hpo' q hq
                obtain ⟨k2, hk2, hk2'⟩ := hksm e he (by rw [he']; exact hq1)
                rw [he'] at hk2'
                cases hk2'
                exact hk2)
              rw [hpre] at h
              simp at h hle
              omega
            | cons f fs =>
              refine ⟨fs, r, post.filter (fun r => r.key != k) ++ [r'], by simp, hyr, hother y b' r hyk hb, ?_⟩
              intro _; exact hpo'
          · refine ⟨pre.filter (fun r => r.key != k), r, post.filter (fun r => r.key != k) ++ [r'], by simp, hyr,
              hother y b' r hyk hb, ?_⟩
            intro _; exact hpo'

end Ndn.Replay
