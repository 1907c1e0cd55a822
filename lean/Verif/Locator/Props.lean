import Verif.Locator.Lemmas
/-
C128–C130: locators, PIBs and TPMs of KeyChains.
-/
namespace Ndn.Locator
open Spec

variable {N : Type}

/-! ### C128: locators -/

/-- What the text of a PIB locator means: the part before the first colon is the scheme, the default one if it is empty, what follows is
the location; a locator is refused exactly if the scheme is not one of those that exist. -/
theorem C128_pib (u : Text) (l : Loc) : parsePib u = some l ↔
    l = ⟨if scheme u = [] then pibSqlite else scheme u, location u⟩ ∧ (scheme u = [] ∨ scheme u = pibSqlite ∨ scheme u = pibMemory) := by
  constructor
  · intro h
    obtain ⟨_, h2, h3⟩ := parse_mem h
    have hs := pib_scheme h
    refine ⟨by cases l; simp_all, ?_⟩
    by_cases h0 : scheme u = []
    · exact .inl h0
    · rw [if_neg h0] at h2
      rw [h2] at hs
      exact .inr hs
  · rintro ⟨rfl, h⟩
    unfold parsePib parseAndCheck
    rw [parseUri_eq]
    dsimp only
    rw [if_pos]
    rcases h with h | h | h
    · rw [if_pos h]; simp
    · rw [h]; decide
    · rw [h]; decide

/-- The same for TPM locators. -/
theorem C128_tpm (u : Text) (l : Loc) : parseTpm u = some l ↔
    l = ⟨if scheme u = [] then tpmFile else scheme u, location u⟩ ∧ (scheme u = [] ∨ scheme u = tpmFile ∨ scheme u = tpmMemory) := by
  constructor
  · intro h
    obtain ⟨_, h2, h3⟩ := parse_mem h
    have hs := tpm_scheme h
    refine ⟨by cases l; simp_all, ?_⟩
    by_cases h0 : scheme u = []
    · exact .inl h0
    · rw [if_neg h0] at h2
      rw [h2] at hs
      exact .inr hs
  · rintro ⟨rfl, h⟩
    unfold parseTpm parseAndCheck
    rw [parseUri_eq]
    dsimp only
    rw [if_pos]
    rcases h with h | h | h
    · rw [if_pos h]; simp
    · rw [h]; decide
    · rw [h]; decide

/-- The canonical text of a locator means that locator. -/
theorem C128_roundtrip (u : Text) (l : Loc) : (parsePib u = some l → parsePib (canonical l) = some l) ∧ (parseTpm u = some l → parseTpm (canonical l) = some l) := by
  have key : ∀ (l : Loc), ':' ∉ l.scheme → scheme (canonical l) = l.scheme ∧ location (canonical l) = l.location := by
    intro l h
    obtain ⟨h1, h2⟩ := split_at l.scheme l.location h
    unfold scheme location canonical
    rw [h1, h2]
    exact ⟨rfl, rfl⟩
  constructor
  · intro h
    have hs := pib_scheme h
    obtain ⟨k1, k2⟩ := key l (no_colon_pib hs)
    rw [C128_pib, k1, k2]
    have hne : l.scheme ≠ [] := by rcases hs with h | h <;> rw [h] <;> decide
    rw [if_neg hne]
    exact ⟨rfl, .inr hs⟩
  · intro h
    have hs := tpm_scheme h
    obtain ⟨k1, k2⟩ := key l (no_colon_tpm hs)
    rw [C128_tpm, k1, k2]
    have hne : l.scheme ≠ [] := by rcases hs with h | h <;> rw [h] <;> decide
    rw [if_neg hne]
    exact ⟨rfl, .inr hs⟩

/-- Different locators of TPMs have different canonical texts, so that comparing the texts, as the constructor does, compares the locators. -/
theorem C128_injective (u u' : Text) (l l' : Loc) (h : parseTpm u = some l) (h' : parseTpm u' = some l') : canonical l = canonical l' ↔ l = l' :=
  ⟨canonical_inj (no_colon_tpm (tpm_scheme h)) (no_colon_tpm (tpm_scheme h')), fun h => by rw [h]⟩

example : parseTpm [':', '/', 'a', ':', 'b'] = some ⟨tpmFile, ['/', 'a', ':', 'b']⟩ ∧ parseTpm tpmMemory = some ⟨tpmMemory, []⟩ ∧
    parsePib tpmFile = none ∧ parsePib [] = some ⟨pibSqlite, []⟩ := by decide

/-! ### C129: making a KeyChain -/

/-- The usual host: nothing is configured. -/
def host : Host := ⟨none, none, some (none, none)⟩
/-- Every location is a file of its own. -/
def sys : Sys := ⟨id, id⟩

/-- A KeyChain whose PIB and TPM were linked: the PIB has the locator of the TPM; its keys are those it had, if it had that locator, and
otherwise there are none. -/
theorem C129_linked (S : Sys) (h : Host) (w : World N) (how : How) (k : KC N) (hk : (make S h w how).2 = .ok k) :
    let w' := (make S h w how).1.headD w
    (pibState w' k.pib).locator = canonical k.tpmLoc ∧
    ((pibState w' k.pib).keys = [] ∨ ∃ q, k.pib = .db q ∧ w'.db q = w.db q) := by
  intro w'
  rcases make_cases S h w how with ⟨w1, _, he, _⟩ | ⟨p, t, a, dp, dt, w1, _, _, _, hdb, hdir, _, _, h1, h2⟩
  · rw [he] at hk; cases hk
  · rw [h2] at hk
    rcases link_spec (decide (p = dp)) dt (pibState w (pibOf S p)) t a with ⟨_, hn⟩ | ⟨t', ht', _, hcase⟩
    · exfalso
      revert hk
      cases hl : (link (decide (p = dp)) dt (pibState w (pibOf S p)) t a).2 with
      | tpm t' => exact absurd hl (hn t')
      | error => intro h; cases h
      | mismatch => intro h; cases h
    · rw [ht'] at hk
      simp only [result, Made.ok.injEq] at hk
      subst hk
      have hw' : w' = (putPib w1 (pibOf S p) ((link (decide (p = dp)) dt (pibState w (pibOf S p)) t a).1.headD (pibState w (pibOf S p)))).1 := by
        show (make S h w how).1.headD w = _
        rw [h1]
        rcases hcase with ⟨hl, _⟩ | ⟨rest, hl, _⟩ <;> rw [hl] <;> rfl
      rw [hw']
      dsimp only
      rw [putPib_state]
      rcases hcase with ⟨hl, hloc⟩ | ⟨rest, hl, _⟩
      · rw [hl]
        refine ⟨hloc, ?_⟩
        cases hp : (pibOf S p : PibRef N) with
        | db q =>
          refine .inr ⟨q, rfl, ?_⟩
          show (putPib w1 (.db q) (w.db q)).1.db q = w.db q
          rw [putPib_same]
        | mem st =>
          left
          unfold pibOf at hp
          split at hp
          · cases hp; rfl
          · cases hp
      · rw [hl]
        exact ⟨rfl, .inl rfl⟩

example : ∃ k, (make sys host (fresh (N := Nat)).w .dflt).2 = .ok k := ⟨_, rfl⟩

/-- Making a KeyChain changes no private keys, and no other database than that of its PIB: in every state each database is as it was, or is
that of the locator asked for (the default one if none is). -/
theorem C129_other (S : Sys) (h : Host) (w : World N) (how : How) (w' : World N) (hw : w' ∈ (make S h w how).1) :
    w'.dir = w.dir ∧ ∀ q, w'.db q = w.db q ∨ ∃ p, q = S.dbPath p.location ∧
      ((how = .dflt ∧ defaultPib h w.defPib = some p) ∨ ∃ pt tt a, how = .given pt tt a ∧ parsePib pt = some p) := by
  rcases make_cases S h w how with ⟨w1, h1, _, hdb, hdir, _⟩ | ⟨p, t, a, dp, dt, w1, hh, _, _, hdb, hdir, _, _, h1, h2⟩
  · rw [h1] at hw
    rw [List.mem_singleton.mp hw]
    exact ⟨hdir, fun q => .inl (by rw [hdb])⟩
  · rw [h1] at hw
    obtain ⟨st, _, rfl⟩ := List.mem_map.mp hw
    refine ⟨by rw [(putPib_rest _ _ _).1, hdir], fun q => ?_⟩
    by_cases hq : pibOf S p = PibRef.db (N := N) q
    · refine .inr ⟨p, ?_, ?_⟩
      · unfold pibOf at hq
        split at hq
        · cases hq
        · injection hq with hq; exact hq.symm
      · rcases hh with ⟨h3, h4, _⟩ | ⟨pt, tt, h3, h4, _⟩
        · exact .inl ⟨h3, h4⟩
        · exact .inr ⟨pt, tt, a, h3, h4⟩
    · left
      rw [putPib_other _ _ _ _ hq, hdb]

/-- When `LocatorMismatchError` is thrown: the locators are valid, the PIB is not the default one, has the locator of another TPM, and
resetting is not allowed. Then nothing is changed. -/
theorem C129_mismatch (S : Sys) (h : Host) (w : World N) (how : How) :
    ((make S h w how).2 = .mismatch ↔ ∃ pt tt p t dp, how = .given pt tt false ∧ parsePib pt = some p ∧ parseTpm tt = some t ∧
      defaultPib h w.defPib = some dp ∧ p ≠ dp ∧ p.scheme ≠ pibMemory ∧
      (w.db (S.dbPath p.location)).locator ≠ [] ∧ (w.db (S.dbPath p.location)).locator ≠ canonical t) ∧
    ((make S h w how).2 = .mismatch → ∀ w' ∈ (make S h w how).1, w'.db = w.db ∧ w'.dir = w.dir) := by
  have hstate : ∀ p, (pibState w (pibOf S p) : PibSt N) = if p.scheme = pibMemory then ⟨[], []⟩ else w.db (S.dbPath p.location) := by
    intro p
    unfold pibOf
    split <;> rfl
  rcases make_cases S h w how with ⟨w1, h1, h2, hdb, hdir, _, _, herr⟩ | ⟨p, t, a, dp, dt, w1, hh, hdp, hdt, hdb, hdir, _, _, h1, h2⟩
  · rw [h2]
    refine ⟨⟨(fun h => by cases h), ?_⟩, (fun h => by cases h)⟩
    rintro ⟨pt, tt, p, t, dp, h0, h3, h4, h5, _⟩
    rcases herr pt tt false h0 with h6 | h6 | h6
    · rw [h3] at h6; cases h6
    · rw [h4] at h6; cases h6
    · rw [h5] at h6; cases h6
  · have hres : (make S h w how).2 = .mismatch ↔ (link (decide (p = dp)) dt (pibState w (pibOf S p)) t a).2 = .mismatch := by
      rw [h2]
      unfold result
      cases (link (decide (p = dp)) dt (pibState w (pibOf S p)) t a).2 <;> simp
    rw [hres, link_mismatch]
    constructor
    · constructor
      · rintro ⟨h3, rfl, h4, h5⟩
        rcases hh with ⟨_, _, _, hx⟩ | ⟨pt, tt, h6, h7, h8⟩
        · cases hx
        · rw [hstate] at h4 h5
          by_cases hm : p.scheme = pibMemory
          · rw [if_pos hm] at h4; exact absurd rfl h4
          · rw [if_neg hm] at h4 h5
            exact ⟨pt, tt, p, t, dp, h6, h7, h8, hdp, by simpa using h3, hm, h4, h5⟩
      · rintro ⟨pt, tt, p', t', dp', h3, h4, h5, h6, h7, h8, h9, h10⟩
        rcases hh with ⟨hx, _⟩ | ⟨pt', tt', h11, h12, h13⟩
        · rw [hx] at h3; cases h3
        · rw [h11] at h3
          cases h3
          rw [h4] at h12; cases h12
          rw [h5] at h13; cases h13
          rw [h6] at hdp; cases hdp
          rw [hstate, if_neg h8]
          exact ⟨by simpa using h7, rfl, h9, h10⟩
    · intro hm w' hw'
      have hm' := (link_mismatch _ dt _ _ _).mpr hm
      rcases link_spec (decide (p = dp)) dt (pibState w (pibOf S p)) t a with ⟨h3, _⟩ | ⟨t', h3, _⟩
      · rw [h1, h3] at hw'
        rw [List.map_singleton, List.mem_singleton] at hw'
        subst hw'
        refine ⟨funext fun q => ?_, by rw [(putPib_rest _ _ _).1, hdir]⟩
        have : pibState w (pibOf S p) = pibState w1 (pibOf S p) := by
          cases hp : (pibOf S p : PibRef N) with
          | db q => simp only [pibState, hdb]
          | mem s => rfl
        rw [this, putPib_id, hdb]
      · rw [h3] at hm'; cases hm'

/-- An example of a history: a key made with everything as usual. -/
def usual : List (Op Nat) := [.make host 0 .dflt, .add 0 7, .drop 0]

/-- The PIB in `/x` with its TPM in `/x`. -/
def apart : List (Op Nat) := [.make host 0 (.given [':', '/', 'x'] [':', '/', 'x'] false), .add 0 7, .drop 0]

example : (make sys host (run sys fresh apart).w (.given [':', '/', 'x'] tpmMemory false)).2 = .mismatch := by rfl

theorem default_pib_wanted (h : Host) (cp ct : Option Text) (hc : h.config = some (cp, ct)) :
    defaultPib h none = parsePib (wanted h.envPib cp) ∧ defaultTpm h none = parseTpm (wanted h.envTpm ct) := by
  constructor
  · unfold defaultPib wanted
    cases h.envPib with
    | some u => rfl
    | none =>
      simp only [hc]
      cases cp with
      | some c => rfl
      | none => decide
  · unfold defaultTpm wanted
    cases h.envTpm with
    | some u => rfl
    | none =>
      simp only [hc]
      cases ct with
      | some c => rfl
      | none => decide

/-- The default KeyChain of a program has the back ends that the environment and the configuration file ask for, whatever is in the PIB,
and none is made exactly if one of the two locators is not valid. -/
theorem C129_defaults (S : Sys) (h : Host) (w : World N) (hw : w.defPib = none ∧ w.defTpm = none) (cp ct : Option Text) (hc : h.config = some (cp, ct)) :
    (∀ p t, parsePib (wanted h.envPib cp) = some p → parseTpm (wanted h.envTpm ct) = some t →
      ∃ k, (make S h w .dflt).2 = .ok k ∧ k.tpmLoc = t ∧ (p.scheme = pibSqlite → k.pib = .db (S.dbPath p.location)) ∧
        (p.scheme = pibMemory → ∃ st, k.pib = .mem st)) ∧
    (parsePib (wanted h.envPib cp) = none ∨ parseTpm (wanted h.envTpm ct) = none → (make S h w .dflt).2 = .error) := by
  obtain ⟨d1, d2⟩ := default_pib_wanted h cp ct hc
  rw [← d1, ← d2]
  obtain ⟨db, dir, defPib, defTpm⟩ := w
  obtain ⟨hw1, hw2⟩ := hw
  dsimp only at hw1 hw2
  subst hw1 hw2
  constructor
  · intro p t hp ht
    have hsql : p.scheme = pibSqlite → pibOf S p = PibRef.db (N := N) (S.dbPath p.location) := by
      intro e
      unfold pibOf
      rw [e, if_neg (by decide)]
    have hmem : p.scheme = pibMemory → pibOf S p = PibRef.mem (N := N) ⟨[], []⟩ := by
      intro e
      unfold pibOf
      rw [if_pos e]
    have harg : arguments h (⟨db, dir, none, none⟩ : World N) .dflt = (⟨db, dir, some p, some t⟩, some (p, t, true)) := by
      simp only [arguments, hp, ht]
    have hdp : defaultPib h (some p) = some p := rfl
    have hdt : defaultTpm h (some t) = some t := rfl
    simp only [make, harg, hdp, hdt]
    have hl : ∀ st : PibSt N, (link (decide True) (some t) st t true).2 = .tpm t := by
      intro st
      unfold link
      simp only [decide_true, if_true]
      split
      · rfl
      · split <;> rfl
    rw [hl]
    refine ⟨_, rfl, rfl, ?_, ?_⟩
    · intro e
      dsimp only
      rw [hsql e]
      rfl
    · intro e
      dsimp only
      rw [hmem e]
      exact ⟨_, rfl⟩
  · intro hn
    have harg : (arguments h (⟨db, dir, none, none⟩ : World N) .dflt).2 = none := by
      simp only [arguments]
      cases hp : defaultPib h none with
      | none => rfl
      | some p =>
        rcases hn with hn | hn
        · rw [hp] at hn; cases hn
        · simp only [hn]
    unfold make
    generalize arguments h (⟨db, dir, none, none⟩ : World N) .dflt = x at harg
    obtain ⟨w1, o⟩ := x
    dsimp only at harg
    subst harg
    rfl

example : wanted (some [':', '/', 'a']) (some pibMemory) = [':', '/', 'a'] ∧ parsePib [':', '/', 'a'] = some ⟨pibSqlite, ['/', 'a']⟩ := by decide

/-- The full claim: nothing recorded in a PIB is lost when a KeyChain is made without permission to reset the PIB. -/
def C129_kept_claim : Prop := ∀ (S : Sys) (l : List (Op Nat)) (h : Host) (pt tt : Text) (w' : World Nat),
  w' ∈ (make S h (run S fresh l).w (.given pt tt false)).1 → ∀ q, recorded w' q = recorded (run S fresh l).w q

/-- The default PIB is opened with a TPM other than the default one, and resetting is not allowed: all its identities, keys and
certificates are erased. (The constructor compares the locator in the PIB with the default one, not with the one given, and then sets the
one given, which erases the PIB.) -/
theorem C129_kept_counterexample : ¬ C129_kept_claim := by
  intro h
  have := h sys usual host [] tpmMemory
    ((make sys host (run sys fresh usual).w (.given [] tpmMemory false)).1.headD (run sys fresh usual).w) (List.mem_cons_self) []
  revert this
  decide +kernel

/-- Nothing recorded in any PIB is lost, in any state that making a KeyChain passes through, if resetting is not allowed, the PIB is not the
default one, and it is not one that has keys but no locator (as a crash while it is erased leaves it). -/
theorem C129_kept_partial (S : Sys) (w : World N) (h : Host) (pt tt : Text) (p : Loc) (hp : parsePib pt = some p)
    (hd : defaultPib h w.defPib ≠ some p)
    (h0 : (w.db (S.dbPath p.location)).locator = [] → (w.db (S.dbPath p.location)).keys = [])
    (w' : World N) (hw : w' ∈ (make S h w (.given pt tt false)).1) (q : Text) : recorded w' q = recorded w q := by
  unfold recorded
  rcases make_cases S h w (.given pt tt false) with ⟨w1, h1, _, hdb, _⟩ | ⟨p', t, a, dp, dt, w1, hh, hdp, _, hdb, _, _, _, h1, _⟩
  · rw [h1] at hw; rw [List.mem_singleton.mp hw, hdb]
  · rcases hh with ⟨hx, _⟩ | ⟨pt', tt', hx, hp', _⟩
    · cases hx
    · cases hx
      rw [hp] at hp'
      cases hp'
      have hne : decide (p = dp) = false := by
        have : p ≠ dp := fun e => hd (by rw [hdp, e])
        simpa using this
      rw [hne] at h1
      rw [h1] at hw
      obtain ⟨st, hst, rfl⟩ := List.mem_map.mp hw
      by_cases hq : pibOf S p = PibRef.db (N := N) q
      · rw [hq] at hst ⊢
        rw [putPib_same]
        have hpath : q = S.dbPath p.location := by
          unfold pibOf at hq
          split at hq
          · cases hq
          · injection hq with hq; exact hq.symm
        refine link_kept dt (w.db q) t ?_ st hst
        rw [hpath]; exact h0
      · rw [putPib_other _ _ _ _ hq, hdb]

example : parsePib [':', '/', 'x'] = some ⟨pibSqlite, ['/', 'x']⟩ ∧ defaultPib host (run sys fresh apart).w.defPib ≠ some ⟨pibSqlite, ['/', 'x']⟩ ∧
    ((run sys fresh apart).w.db ['/', 'x']) = ⟨canonical ⟨tpmFile, ['/', 'x']⟩, [7]⟩ := by decide +kernel

/-- The full claim: the TPM of a KeyChain is the one given. -/
def C129_supplied_claim : Prop := ∀ (S : Sys) (l : List (Op Nat)) (h : Host) (pt tt : Text) (a : Bool) (t : Loc) (k : KC Nat),
  parseTpm tt = some t → (make S h (run S fresh l).w (.given pt tt a)).2 = .ok k → k.tpmLoc = t

/-- The same program, run twice, gets a TPM in memory the first time, and the one in files the second time. -/
theorem C129_supplied_counterexample : ¬ C129_supplied_claim := by
  intro h
  have := h sys [.make host 0 (.given [] tpmMemory false), .drop 0] host [] tpmMemory false ⟨tpmMemory, []⟩ _ (by decide +kernel) rfl
  revert this
  decide +kernel

/-- The TPM is the one given unless the PIB is the default one and has the locator of a TPM other than the default one. -/
theorem C129_supplied_partial (S : Sys) (w : World N) (h : Host) (pt tt : Text) (a : Bool) (p t : Loc) (k : KC N)
    (hp : parsePib pt = some p) (ht : parseTpm tt = some t) (hk : (make S h w (.given pt tt a)).2 = .ok k)
    (hd : defaultPib h w.defPib ≠ some p ∨ p.scheme = pibMemory ∨ (w.db (S.dbPath p.location)).locator = [] ∨
      ∃ d, defaultTpm h w.defTpm = some d ∧ (w.db (S.dbPath p.location)).locator = canonical d) : k.tpmLoc = t := by
  rcases make_cases S h w (.given pt tt a) with ⟨w1, _, he, _⟩ | ⟨p', t1, a', dp, dt, w1, hh, hdp, hdt, hdb, _, _, _, _, h2⟩
  · rw [he] at hk; cases hk
  · rcases hh with ⟨hx, _⟩ | ⟨pt', tt', hx, hp', ht'⟩
    · cases hx
    · cases hx
      rw [hp] at hp'; cases hp'
      rw [ht] at ht'; cases ht'
      rw [h2] at hk
      cases hl : (link (decide (p = dp)) dt (pibState w (pibOf S p)) t a).2 with
      | error => rw [hl] at hk; cases hk
      | mismatch => rw [hl] at hk; cases hk
      | tpm t' =>
        rw [hl] at hk
        simp only [result, Made.ok.injEq] at hk
        subst hk
        refine link_supplied _ _ _ _ _ _ hl ?_
        rcases hd with h3 | h3 | h3 | ⟨d, h3, h4⟩
        · left
          have : p ≠ dp := fun e => h3 (by rw [hdp, e])
          simpa using this
        · right; left
          unfold pibOf; rw [if_pos h3]; rfl
        · by_cases hm : p.scheme = pibMemory
          · right; left
            unfold pibOf; rw [if_pos hm]; rfl
          · right; left
            unfold pibOf; rw [if_neg hm]; exact h3
        · by_cases hm : p.scheme = pibMemory
          · right; left
            unfold pibOf; rw [if_pos hm]; rfl
          · right; right
            unfold pibOf; rw [if_neg hm]; exact ⟨d, by rw [hdt, h3], h4⟩

example : ∃ k, (make sys host (run sys fresh apart).w (.given [':', '/', 'x'] tpmMemory true)).2 = .ok k ∧ k.tpmLoc = ⟨tpmMemory, []⟩ := ⟨_, rfl, rfl⟩

/-- The full claim: a KeyChain for which valid locators are given is made, or refused because the locators do not belong together. -/
def C129_valid_claim : Prop := ∀ (S : Sys) (l : List (Op Nat)) (h : Host) (pt tt : Text) (a : Bool),
  parsePib pt ≠ none → parseTpm tt ≠ none → ∀ x, (make S h (run S fresh l).w (.given pt tt a)).2 = x → x ≠ .error

/-- It is refused also if the configured default PIB, which is not used, does not exist. -/
theorem C129_valid_counterexample : ¬ C129_valid_claim := by
  intro h
  exact h sys [] ⟨some tpmFile, none, none⟩ pibMemory tpmMemory false (by decide +kernel) (by decide +kernel) .error rfl rfl

/-- With valid defaults it is so. -/
theorem C129_valid_partial (S : Sys) (w : World N) (h : Host) (pt tt : Text) (a : Bool) (hp : parsePib pt ≠ none) (ht : parseTpm tt ≠ none)
    (hd1 : defaultPib h w.defPib ≠ none) (hd2 : defaultTpm h w.defTpm ≠ none) : (make S h w (.given pt tt a)).2 ≠ .error := by
  rcases make_cases S h w (.given pt tt a) with ⟨w1, _, _, _, _, _, _, he⟩ | ⟨p', t1, a', dp, dt, w1, hh, hdp, hdt, hdb, _, _, _, _, h2⟩
  · rcases he pt tt a rfl with h1 | h1 | h1
    · exact absurd h1 hp
    · exact absurd h1 ht
    · exact absurd h1 hd1
  · rw [h2]
    intro he
    cases hl : (link (decide (p' = dp)) dt (pibState w (pibOf S p')) t1 a').2 with
    | error =>
      have := (link_error _ _ _ _ _ hl).2
      rw [hdt] at this
      exact hd2 this
    | mismatch => rw [hl] at he; cases he
    | tpm t' => rw [hl] at he; cases he

/-- The full claim: if a PIB is refused then its keys are those of another TPM. -/
def C129_alias_claim : Prop := ∀ (S : Sys) (l : List (Op Nat)) (h : Host) (pt tt : Text) (p t t0 : Loc),
  parsePib pt = some p → parseTpm tt = some t → parseTpm ((run S fresh l).w.db (S.dbPath p.location)).locator = some t0 →
  t.scheme = tpmFile → t0.scheme = tpmFile → (make S h (run S fresh l).w (.given pt tt false)).2 = .mismatch → S.dirPath t.location ≠ S.dirPath t0.location

/-- Locators are compared as texts, so a TPM is not recognised under another name of its directory (such as the empty location, which is
that of the default directory). -/
theorem C129_alias_counterexample : ¬ C129_alias_claim := by
  intro h
  exact h ⟨id, fun _ => []⟩ apart host [':', '/', 'x'] [] ⟨pibSqlite, ['/', 'x']⟩ ⟨tpmFile, []⟩ ⟨tpmFile, ['/', 'x']⟩
    (by decide +kernel) (by decide +kernel) (by decide +kernel) rfl rfl rfl rfl

/-- A PIB is never refused for the locator that it has. -/
theorem C129_alias_partial (S : Sys) (w : World N) (h : Host) (pt tt : Text) (p t : Loc) (hp : parsePib pt = some p) (ht : parseTpm tt = some t)
    (hl : (w.db (S.dbPath p.location)).locator = canonical t) (a : Bool) : (make S h w (.given pt tt a)).2 ≠ .mismatch := by
  intro hm
  obtain ⟨pt', tt', p', t', dp, h1, h2, h3, _, _, _, _, h7⟩ := (C129_mismatch S h w _).1.mp hm
  cases h1
  rw [hp] at h2; cases h2
  rw [ht] at h3; cases h3
  exact h7 hl

/-- Once they are known, the default locators stay the same as long as the program runs, whatever becomes of the environment and of the
configuration file. -/
theorem C129_default_fixed [DecidableEq N] (S : Sys) (l : List (Op N)) (hl : ∀ h how j, .crash h how j ∉ l) (m : Mach N) (x : Loc) :
    (m.w.defPib = some x → (run S m l).w.defPib = some x) ∧ (m.w.defTpm = some x → (run S m l).w.defTpm = some x) := by
  induction l generalizing m with
  | nil => exact ⟨fun h => h, fun h => h⟩
  | cons o l ih =>
    have hl' : ∀ h how j, Op.crash h how j ∉ l := fun h how j hm => hl h how j (List.mem_cons_of_mem _ hm)
    suffices hs : (m.w.defPib = some x → (step S m o).w.defPib = some x) ∧ (m.w.defTpm = some x → (step S m o).w.defTpm = some x) from
      ⟨fun h => (ih hl' _).1 (hs.1 h), fun h => (ih hl' _).2 (hs.2 h)⟩
    have hpib : ∀ (w : World N) r st, (putPib w r st).1.defPib = w.defPib ∧ (putPib w r st).1.defTpm = w.defTpm := fun w r st => (putPib_rest w r st).2
    have htpm : ∀ (w : World N) r ks, (putTpm w r ks).1.defPib = w.defPib ∧ (putTpm w r ks).1.defTpm = w.defTpm := by
      intro w r ks; cases r <;> exact ⟨rfl, rfl⟩
    cases o with
    | make h i how =>
      have hw : (step S m (.make h i how)).w = (make S h m.w how).1.headD m.w := by
        simp only [step]
        split <;> rfl
      rw [hw]
      rcases make_cases S h m.w how with ⟨w1, h1, _, _, _, h2, h3, _⟩ | ⟨p, t, a, dp, dt, w1, _, hdp, hdt, _, _, h2, h3, h1, _⟩
      · rw [h1]
        constructor
        · intro hx
          show w1.defPib = some x
          rcases h3 with h3 | h3
          · rw [h3, hx]
          · rw [h3, hx]; rfl
        · intro hx
          show w1.defTpm = some x
          rcases h2 with h2 | h2
          · rw [h2, hx]
          · rw [h2, hx]; rfl
      · have hne : ∃ st, (make S h m.w how).1.headD m.w = (putPib w1 (pibOf S p) st).1 := by
          rw [h1]
          rcases link_spec (decide (p = dp)) dt (pibState m.w (pibOf S p)) t a with ⟨h4, _⟩ | ⟨_, _, _, ⟨h4, _⟩ | ⟨rest, h4, _⟩⟩ <;>
            rw [h4] <;> exact ⟨_, rfl⟩
        obtain ⟨st, hst⟩ := hne
        rw [hst]
        constructor
        · intro hx
          rw [(hpib _ _ _).1, h3]
          rw [hx] at hdp
          exact hdp.symm
        · intro hx
          rw [(hpib _ _ _).2]
          rcases h2 with h2 | h2
          · rw [h2, hx]
          · rw [h2, hdt, hx]; rfl
    | crash h how j => exact absurd List.mem_cons_self (hl h how j)
    | drop i => exact ⟨fun h => h, fun h => h⟩
    | add i n =>
      simp only [step]
      cases m.kc i with
      | none => exact ⟨fun h => h, fun h => h⟩
      | some k =>
        dsimp only
        split
        · exact ⟨fun h => h, fun h => h⟩
        · exact ⟨fun h => by rw [(hpib _ _ _).1, (htpm _ _ _).1, h], fun h => by rw [(hpib _ _ _).2, (htpm _ _ _).2, h]⟩
    | remove i n =>
      simp only [step]
      cases m.kc i with
      | none => exact ⟨fun h => h, fun h => h⟩
      | some k =>
        dsimp only
        split
        · exact ⟨fun h => by rw [(htpm _ _ _).1, (hpib _ _ _).1, h], fun h => by rw [(htpm _ _ _).2, (hpib _ _ _).2, h]⟩
        · exact ⟨fun h => h, fun h => h⟩

example : (run sys fresh usual).w.defPib = some ⟨pibSqlite, []⟩ ∧ (run sys (run sys fresh usual) [.make ⟨some pibMemory, none, none⟩ 0 .dflt]).w.defPib = some ⟨pibSqlite, []⟩ := by
  decide +kernel

/-! ### C130: the keys of a KeyChain -/

variable [DecidableEq N]

/-- The full claim: every key in the PIB of a KeyChain has its private key in the TPM. -/
def C130_matched_claim : Prop := ∀ (S : Sys) (l : List (Op Nat)) (i : Nat) (k : KC Nat), (run S fresh l).kc i = some k → Matched (run S fresh l).w k

/-- The PIB is a database and the TPM in memory: the next program finds the PIB with its keys, and an empty TPM of the same locator. -/
theorem C130_matched_counterexample : ¬ C130_matched_claim := by
  intro h
  have := h sys [.make host 0 (.given [':', '/', 'x'] tpmMemory false), .add 0 7, .drop 0, .make host 1 (.given [':', '/', 'x'] tpmMemory false)] 1 _ rfl
    7 (by decide +kernel)
  revert this
  decide +kernel

/-- The same claim without TPMs in memory. -/
def C130_files_claim : Prop := ∀ (S : Sys) (l : List (Op Nat)) (i : Nat) (k : KC Nat),
  (∀ l1 l2, l = l1 ++ l2 → ∀ i k q, (run S fresh l1).kc i = some k → k.pib = .db q → ∃ D, k.tpm = .dir D) →
  (run S fresh l).kc i = some k → Matched (run S fresh l).w k

/-- Two KeyChains with one PIB: the second one links it to another TPM, then the first one makes a key. -/
theorem C130_files_counterexample : ¬ C130_files_claim := by
  intro h
  have hl : ∀ l1 l2, [Op.make host 0 (.given [':', '/', 'x'] [':', '/', 'x'] false), .make host 1 (.given [':', '/', 'x'] [':', '/', 'y'] true), .add 0 7] = l1 ++ l2 →
      ∀ i k q, (run sys (fresh (N := Nat)) l1).kc i = some k → k.pib = .db q → ∃ D, k.tpm = .dir D := by
    intro l1 l2 e i k q hk hq
    match l1, e with
    | [], _ => cases hk
    | [_], e =>
      cases e
      match i with
      | 0 => cases hk; exact ⟨_, rfl⟩
      | _ + 1 => cases hk
    | [_, _], e =>
      cases e
      match i with
      | 0 => cases hk; exact ⟨_, rfl⟩
      | 1 => cases hk; exact ⟨_, rfl⟩
      | _ + 2 => cases hk
    | [_, _, _], e =>
      cases e
      match i with
      | 0 => cases hk; exact ⟨_, rfl⟩
      | 1 => cases hk; exact ⟨_, rfl⟩
      | _ + 2 => cases hk
    | _ :: _ :: _ :: _ :: _, e => cases e
  have := h sys _ 1 _ hl rfl 7 (by decide +kernel)
  revert this
  decide +kernel

/-- The keys recorded in a PIB state as belonging to the TPM in directory `D`. -/
def At (S : Sys) (st : PibSt N) (n : N) (D : Text) : Prop := n ∈ st.keys ∧ ∃ t : Loc, t.scheme = tpmFile ∧ st.locator = canonical t ∧ D = S.dirPath t.location

def Live (S : Sys) (w : World N) (k : KC N) : Prop :=
  match k.pib with
  | .db q => k.tpm = .dir (S.dirPath k.tpmLoc.location) ∧ k.tpmLoc.scheme = tpmFile ∧ (w.db q).locator = canonical k.tpmLoc
  | .mem st => (∀ n ∈ st.keys, n ∈ tpmKeys w k.tpm) ∧ ∀ D, k.tpm = .dir D → ∀ n ∈ st.keys, ∀ q, ¬ At S (w.db q) n D

/-- What always holds if there is one KeyChain at a time. -/
structure Inv (S : Sys) (m : Mach N) : Prop where
  inDir : ∀ q n D, At S (m.w.db q) n D → n ∈ m.w.dir D
  once : ∀ q q' n D, At S (m.w.db q) n D → At S (m.w.db q') n D → q = q'
  live : ∀ i k, m.kc i = some k → Live S m.w k
  one : ∀ i j k k', m.kc i = some k → m.kc j = some k' → i = j
  known : ∀ l, m.w.defTpm = some l → l.scheme = tpmFile ∨ l.scheme = tpmMemory

theorem default_known (h : Host) (c : Option Loc) (hc : ∀ l, c = some l → l.scheme = tpmFile ∨ l.scheme = tpmMemory) (l : Loc) (hl : defaultTpm h c = some l) :
    l.scheme = tpmFile ∨ l.scheme = tpmMemory := by
  unfold defaultTpm at hl
  cases c with
  | some l' => exact hc l hl
  | none =>
    dsimp only at hl
    cases he : h.envTpm with
    | some u => rw [he] at hl; exact tpm_scheme hl
    | none =>
      rw [he] at hl
      dsimp only at hl
      cases hc : h.config with
      | none => rw [hc] at hl; cases hl
      | some c => rw [hc] at hl; exact tpm_scheme hl

theorem link_at (S : Sys) (b : Bool) (dt : Option Loc) (st : PibSt N) (t : Loc) (a : Bool) (s : PibSt N) (hs : s ∈ (link b dt st t a).1) (n : N) (D : Text)
    (h : At S s n D) : At S st n D := by
  rcases link_spec b dt st t a with ⟨h1, _⟩ | ⟨t', _, _, ⟨h1, _⟩ | ⟨rest, h1, _, h3⟩⟩
  · rw [h1] at hs; rw [List.mem_singleton.mp hs] at h; exact h
  · rw [h1] at hs; rw [List.mem_singleton.mp hs] at h; exact h
  · rw [h1] at hs
    rcases List.mem_cons.mp hs with rfl | hs
    · cases h.1
    · rcases h3 s hs with rfl | ⟨h4, _⟩
      · exact h
      · obtain ⟨t2, _, h5, _⟩ := h.2
        rw [h4] at h5
        exact absurd h5.symm (canonical_ne t2)

/-- The worlds that making a KeyChain passes through record no more than before. -/
theorem make_at (S : Sys) (h : Host) (w : World N) (how : How) (w' : World N) (hw : w' ∈ (make S h w how).1) :
    w'.dir = w.dir ∧ (∀ q n D, At S (w'.db q) n D → At S (w.db q) n D) ∧ (w'.defTpm = w.defTpm ∨ w'.defTpm = defaultTpm h w.defTpm) := by
  rcases make_cases S h w how with ⟨w1, h1, _, hdb, hdir, hdef, _⟩ | ⟨p, t, a, dp, dt, w1, _, _, hdt, hdb, hdir, hdef, _, h1, _⟩
  · rw [h1] at hw
    rw [List.mem_singleton.mp hw]
    exact ⟨hdir, fun q n D h => by rw [hdb] at h; exact h, hdef⟩
  · rw [h1] at hw
    obtain ⟨st, hst, rfl⟩ := List.mem_map.mp hw
    refine ⟨by rw [(putPib_rest _ _ _).1, hdir], fun q n D hA => ?_, by rw [(putPib_rest _ _ _).2.2, ← hdt]; exact hdef⟩
    by_cases hq : pibOf S p = PibRef.db (N := N) q
    · rw [hq, putPib_same] at hA
      rw [hq] at hst
      exact link_at S _ _ _ _ _ st hst n D hA
    · rw [putPib_other _ _ _ _ hq, hdb] at hA
      exact hA

theorem headD_mem (S : Sys) (h : Host) (w : World N) (how : How) : (make S h w how).1.headD w ∈ (make S h w how).1 := by
  rcases make_cases S h w how with ⟨w1, h1, _⟩ | ⟨p, t, a, dp, dt, w1, _, _, _, _, _, _, _, h1, _⟩
  · rw [h1]; exact List.mem_cons_self
  · rw [h1]
    rcases link_spec (decide (p = dp)) dt (pibState w (pibOf S p)) t a with ⟨h4, _⟩ | ⟨_, _, _, ⟨h4, _⟩ | ⟨rest, h4, _⟩⟩ <;>
      rw [h4] <;> exact List.mem_cons_self

/-- If there is at most one KeyChain at a time, and no KeyChain with a database has its TPM in memory, then every key in the PIB of a
KeyChain has its private key in the TPM, through any number of KeyChains, programs and crashes while KeyChains are made, with any
locators, defaults and permissions. -/
theorem C130_matched_partial (S : Sys) (l : List (Op N)) (i : Nat) (k : KC N)
    (hone : ∀ l1 h i how l2, l = l1 ++ .make h i how :: l2 → ∀ j, (run S fresh l1).kc j = none)
    (hfile : ∀ l1 l2, l = l1 ++ l2 → ∀ i k q, (run S fresh l1).kc i = some k → k.pib = .db q → ∃ D, k.tpm = .dir D)
    (hk : (run S fresh l).kc i = some k) : Matched (run S fresh l).w k := by
  suffices H : ∀ l m, Inv S m → (∀ l1 h i how l2, l = l1 ++ .make h i how :: l2 → ∀ j, (run S m l1).kc j = none) →
      (∀ l1 l2, l = l1 ++ l2 → ∀ i k q, (run S m l1).kc i = some k → k.pib = .db q → ∃ D, k.tpm = .dir D) → Inv S (run S m l) by
    have hinv := H l fresh ⟨(fun q n D h => by cases h.1), (fun q q' n D h => by cases h.1), (fun i k h => by cases h), (fun i j k k' h => by cases h),
      (fun l h => by cases h)⟩ hone hfile
    have hlive := hinv.live i k hk
    intro n hn
    unfold Live at hlive
    cases hp : k.pib with
    | db q =>
      rw [hp] at hlive hn
      obtain ⟨h1, h2, h3⟩ := hlive
      rw [h1]
      exact hinv.inDir q n _ ⟨hn, k.tpmLoc, h2, h3, rfl⟩
    | mem st =>
      rw [hp] at hlive hn
      exact hlive.1 n hn
  intro l
  induction l with
  | nil => intro m h _ _; exact h
  | cons o l ih =>
    intro m hm h1 h2
    refine ih (step S m o) ?_ (fun l1 h i how l2 e => h1 (o :: l1) h i how l2 (by rw [e]; rfl)) (fun l1 l2 e => h2 (o :: l1) l2 (by rw [e]; rfl))
    have hfile1 : ∀ i k q, (step S m o).kc i = some k → k.pib = .db q → ∃ D, k.tpm = .dir D := h2 [o] l rfl
    cases o with
    | make h i how =>
      have hnone : ∀ j, m.kc j = none := h1 [] h i how l rfl
      have hw : (step S m (.make h i how)).w = (make S h m.w how).1.headD m.w := by
        simp only [step]
        split <;> rfl
      obtain ⟨g1, g2, g3⟩ := make_at S h m.w how _ (headD_mem S h m.w how)
      have hkc : ∀ j k, (step S m (.make h i how)).kc j = some k → j = i ∧ (make S h m.w how).2 = .ok k := by
        intro j k hj
        simp only [step] at hj
        split at hj
        · rename_i k' hk'
          change setKc m.kc i (some k') j = some k at hj
          unfold setKc at hj
          split at hj
          · rename_i hji
            cases hj
            exact ⟨hji, hk'⟩
          · rw [hnone] at hj; cases hj
        · change m.kc j = some k at hj
          rw [hnone] at hj; cases hj
      refine ⟨?_, ?_, ?_, ?_, ?_⟩
      · intro q n D hA
        rw [hw] at hA ⊢
        rw [g1]
        exact hm.inDir q n D (g2 q n D hA)
      · intro q q' n D hA hA'
        rw [hw] at hA hA'
        exact hm.once q q' n D (g2 q n D hA) (g2 q' n D hA')
      · intro j k hj
        obtain ⟨_, hk⟩ := hkc j k hj
        obtain ⟨l1, l2⟩ := C129_linked S h m.w how k hk
        rw [hw]
        have hsch : k.tpm = tpmOf S k.tpmLoc ∧ (k.tpmLoc.scheme = tpmFile ∨ k.tpmLoc.scheme = tpmMemory) := by
          rcases make_cases S h m.w how with ⟨w1, _, he, _⟩ | ⟨p, t, a, dp, dt, w1, hh, _, hdt, _, _, _, _, _, hres⟩
          · rw [he] at hk; cases hk
          · rw [hres] at hk
            cases hl : (link (decide (p = dp)) dt (pibState m.w (pibOf S p)) t a).2 with
            | error => rw [hl] at hk; cases hk
            | mismatch => rw [hl] at hk; cases hk
            | tpm t' =>
              rw [hl] at hk
              simp only [result, Made.ok.injEq] at hk
              subst hk
              refine ⟨rfl, ?_⟩
              show t'.scheme = _ ∨ t'.scheme = _
              rcases link_spec (decide (p = dp)) dt (pibState m.w (pibOf S p)) t a with ⟨_, hn⟩ | ⟨t2, ht2, ht3, _⟩
              · exact absurd hl (hn t')
              · rw [hl] at ht2
                cases ht2
                rcases ht3 with rfl | ht3
                · rcases hh with ⟨_, _, hx, _⟩ | ⟨pt, tt, _, _, hx⟩
                  · exact default_known h _ hm.known _ hx
                  · exact tpm_scheme hx
                · rw [hdt] at ht3
                  exact default_known h _ hm.known _ ht3.symm
        unfold Live
        cases hp : k.pib with
        | db q =>
          dsimp only
          rw [hp] at l1
          obtain ⟨D, hD⟩ := hfile1 j k q hj hp
          have hnm : k.tpmLoc.scheme ≠ tpmMemory := by
            intro e
            have := hsch.1
            unfold tpmOf at this
            rw [if_pos e, hD] at this
            cases this
          refine ⟨?_, hsch.2.resolve_right hnm, l1⟩
          rw [hsch.1]
          unfold tpmOf
          rw [if_neg hnm]
        | mem st =>
          dsimp only
          rw [hp] at l2
          rcases l2 with l2 | ⟨q, hq, _⟩
          · change st.keys = [] at l2
            rw [l2]
            exact ⟨(fun n hn => by cases hn), (fun D _ n hn => by cases hn)⟩
          · cases hq
      · intro j j' k k' hj hj'
        rw [(hkc j k hj).1, (hkc j' k' hj').1]
      · intro x hx
        rw [hw] at hx
        rcases g3 with g3 | g3
        · rw [g3] at hx; exact hm.known x hx
        · rw [g3] at hx; exact default_known h _ hm.known x hx
    | crash h how j =>
      have hgood : ∀ w', (w' ∈ (make S h m.w how).1 ∨ w' = m.w) → w'.dir = m.w.dir ∧ (∀ q n D, At S (w'.db q) n D → At S (m.w.db q) n D) := by
        rintro w' (hw | rfl)
        · obtain ⟨g1, g2, _⟩ := make_at S h m.w how w' hw
          exact ⟨g1, g2⟩
        · exact ⟨rfl, fun _ _ _ h => h⟩
      have hmem : ((make S h m.w how).1[j]?).getD m.w ∈ (make S h m.w how).1 ∨ ((make S h m.w how).1[j]?).getD m.w = m.w := by
        cases hj : (make S h m.w how).1[j]? with
        | none => exact .inr rfl
        | some w' => exact .inl (List.mem_of_getElem? hj)
      obtain ⟨g1, g2⟩ := hgood _ hmem
      refine ⟨?_, ?_, (fun i k h => by cases h), (fun i j k k' h => by cases h), (fun l h => by cases h)⟩
      · intro q n D hA
        show n ∈ (((make S h m.w how).1[j]?).getD m.w).dir D
        rw [g1]
        exact hm.inDir q n D (g2 q n D hA)
      · intro q q' n D hA hA'
        exact hm.once q q' n D (g2 q n D hA) (g2 q' n D hA')
    | drop i =>
      have hkc : ∀ j k, (step S m (.drop i)).kc j = some k → m.kc j = some k := by
        intro j k hj
        change setKc m.kc i none j = some k at hj
        unfold setKc at hj
        split at hj
        · cases hj
        · exact hj
      exact ⟨hm.inDir, hm.once, fun j k hj => hm.live j k (hkc j k hj), fun j j' k k' hj hj' => hm.one j j' k k' (hkc j k hj) (hkc j' k' hj'), hm.known⟩
    | add i n =>
      simp only [step]
      cases hki : m.kc i with
      | none => exact hm
      | some k =>
        dsimp only
        by_cases hin : n ∈ tpmKeys m.w k.tpm
        · rw [if_pos hin]; exact hm
        · rw [if_neg hin]
          have hlive := hm.live i k hki
          have honly : ∀ j k', m.kc j = some k' → j = i := fun j k' hj => hm.one j i k' k hj hki
          have hkcs : ∀ (x : KC N) j k', setKc m.kc i (some x) j = some k' → j = i ∧ k' = x := by
            intro x j k' hj
            unfold setKc at hj
            split at hj
            · rename_i e; cases hj; exact ⟨e, rfl⟩
            · rename_i e; exact absurd (honly j k' hj) e
          obtain ⟨kp, kt, kl⟩ := k
          cases kp with
          | db q =>
            obtain ⟨e1, e2, e3⟩ := hlive
            change kt = TpmRef.dir (S.dirPath kl.location) at e1
            change kl.scheme = _ at e2
            change (m.w.db q).locator = canonical kl at e3
            subst e1
            change n ∉ m.w.dir (S.dirPath kl.location) at hin
            simp only [putTpm, pibState, putPib, tpmKeys]
            -- what is recorded now
            have hAt : ∀ q' n' D, At S ((fun x => if x = q then ({ locator := (m.w.db q).locator, keys := n :: (m.w.db q).keys } : PibSt N) else m.w.db x) q') n' D →
                At S (m.w.db q') n' D ∨ (q' = q ∧ n' = n ∧ D = S.dirPath kl.location) := by
              intro q' n' D hA
              dsimp only at hA
              split at hA
              · rename_i e
                subst e
                obtain ⟨a1, t, a2, a3, a4⟩ := hA
                dsimp only at a1 a3
                rcases List.mem_cons.mp a1 with rfl | a1
                · right
                  refine ⟨rfl, rfl, ?_⟩
                  rw [e3] at a3
                  have := canonical_inj (no_colon_tpm (.inl e2)) (no_colon_tpm (.inl a2)) a3
                  rw [a4, this]
                · exact .inl ⟨a1, t, a2, a3, a4⟩
              · exact .inl hA
            refine ⟨?_, ?_, ?_, ?_, hm.known⟩
            · intro q' n' D hA
              dsimp only
              rcases hAt q' n' D hA with hA | ⟨_, rfl, rfl⟩
              · have := hm.inDir q' n' D hA
                split
                · rename_i e; subst e; exact List.mem_cons_of_mem _ this
                · exact this
              · rw [if_pos rfl]; exact List.mem_cons_self
            · intro q1 q2 n' D hA1 hA2
              rcases hAt q1 n' D hA1 with hB1 | ⟨rfl, rfl, rfl⟩
              · rcases hAt q2 n' D hA2 with hB2 | ⟨rfl, rfl, rfl⟩
                · exact hm.once q1 q2 n' D hB1 hB2
                · exact absurd (hm.inDir q1 n' _ hB1) hin
              · rcases hAt q2 n' _ hA2 with hB2 | ⟨rfl, _, _⟩
                · exact absurd (hm.inDir q2 n' _ hB2) hin
                · rfl
            · intro j k' hj
              obtain ⟨_, rfl⟩ := hkcs _ j k' hj
              refine ⟨rfl, e2, ?_⟩
              dsimp only
              rw [if_pos rfl]
              exact e3
            · intro j j' k1 k2 hj hj'
              rw [(hkcs _ j k1 hj).1, (hkcs _ j' k2 hj').1]
          | mem st =>
            obtain ⟨e1, e2⟩ := hlive
            dsimp only at e1 e2
            cases kt with
            | dir D0 =>
              simp only [putTpm, pibState, putPib, tpmKeys] at hin e1 ⊢
              refine ⟨?_, hm.once, ?_, ?_, hm.known⟩
              · intro q' n' D hA
                dsimp only
                have := hm.inDir q' n' D hA
                split
                · rename_i e; subst e; exact List.mem_cons_of_mem _ this
                · exact this
              · intro j k' hj
                obtain ⟨_, rfl⟩ := hkcs _ j k' hj
                refine ⟨fun n' hn' => ?_, fun D hD n' hn' q hA => ?_⟩
                · show n' ∈ (if D0 = D0 then n :: m.w.dir D0 else m.w.dir D0)
                  rw [if_pos rfl]
                  rcases List.mem_cons.mp hn' with rfl | hn'
                  · exact List.mem_cons_self
                  · exact List.mem_cons_of_mem _ (e1 n' hn')
                · cases hD
                  rcases List.mem_cons.mp hn' with rfl | hn'
                  · exact hin (hm.inDir q n' D0 hA)
                  · exact e2 D0 rfl n' hn' q hA
              · intro j j' k1 k2 hj hj'
                rw [(hkcs _ j k1 hj).1, (hkcs _ j' k2 hj').1]
            | mem ks =>
              simp only [putTpm, pibState, putPib, tpmKeys] at hin e1 ⊢
              refine ⟨hm.inDir, hm.once, ?_, ?_, hm.known⟩
              · intro j k' hj
                obtain ⟨_, rfl⟩ := hkcs _ j k' hj
                refine ⟨fun n' hn' => ?_, fun D hD => by cases hD⟩
                show n' ∈ n :: ks
                rcases List.mem_cons.mp hn' with rfl | hn'
                · exact List.mem_cons_self
                · exact List.mem_cons_of_mem _ (e1 n' hn')
              · intro j j' k1 k2 hj hj'
                rw [(hkcs _ j k1 hj).1, (hkcs _ j' k2 hj').1]
    | remove i n =>
      simp only [step]
      cases hki : m.kc i with
      | none => exact hm
      | some k =>
        dsimp only
        by_cases hin : n ∈ (pibState m.w k.pib).keys
        · rw [if_pos hin]
          have hlive := hm.live i k hki
          have honly : ∀ j k', m.kc j = some k' → j = i := fun j k' hj => hm.one j i k' k hj hki
          have hkcs : ∀ (x : KC N) j k', setKc m.kc i (some x) j = some k' → j = i ∧ k' = x := by
            intro x j k' hj
            unfold setKc at hj
            split at hj
            · rename_i e; cases hj; exact ⟨e, rfl⟩
            · rename_i e; exact absurd (honly j k' hj) e
          obtain ⟨kp, kt, kl⟩ := k
          cases kp with
          | db q =>
            obtain ⟨e1, e2, e3⟩ := hlive
            change kt = TpmRef.dir (S.dirPath kl.location) at e1
            change kl.scheme = _ at e2
            change (m.w.db q).locator = canonical kl at e3
            subst e1
            change n ∈ (m.w.db q).keys at hin
            have hAtn : At S (m.w.db q) n (S.dirPath kl.location) := ⟨hin, kl, e2, e3, rfl⟩
            simp only [putTpm, pibState, putPib, tpmKeys]
            have hAt : ∀ q' n' D, At S ((fun x => if x = q then ({ locator := (m.w.db q).locator, keys := (m.w.db q).keys.filter (· ≠ n) } : PibSt N) else m.w.db x) q') n' D →
                At S (m.w.db q') n' D ∧ (q' = q → n' ≠ n) := by
              intro q' n' D hA
              dsimp only at hA
              split at hA
              · rename_i e
                subst e
                obtain ⟨a1, t, a2, a3, a4⟩ := hA
                dsimp only at a1 a3
                have := List.mem_filter.mp a1
                exact ⟨⟨this.1, t, a2, a3, a4⟩, fun _ => by simpa using this.2⟩
              · rename_i e
                exact ⟨hA, fun h => absurd h e⟩
            refine ⟨?_, ?_, ?_, ?_, hm.known⟩
            · intro q' n' D hA
              dsimp only
              obtain ⟨hB, hne⟩ := hAt q' n' D hA
              have hd := hm.inDir q' n' D hB
              split
              · rename_i e
                subst e
                refine List.mem_filter.mpr ⟨hd, ?_⟩
                simp only [ne_eq, decide_not, Bool.not_eq_eq_eq_not, Bool.not_true, decide_eq_false_iff_not]
                intro e
                subst e
                exact hne (hm.once q' q _ _ hB hAtn) rfl
              · exact hd
            · intro q1 q2 n' D hA1 hA2
              exact hm.once q1 q2 n' D (hAt q1 n' D hA1).1 (hAt q2 n' D hA2).1
            · intro j k' hj
              obtain ⟨_, rfl⟩ := hkcs _ j k' hj
              refine ⟨rfl, e2, ?_⟩
              dsimp only
              rw [if_pos rfl]
              exact e3
            · intro j j' k1 k2 hj hj'
              rw [(hkcs _ j k1 hj).1, (hkcs _ j' k2 hj').1]
          | mem st =>
            obtain ⟨e1, e2⟩ := hlive
            dsimp only at e1 e2
            change n ∈ st.keys at hin
            cases kt with
            | dir D0 =>
              simp only [putTpm, pibState, putPib, tpmKeys] at e1 ⊢
              refine ⟨?_, hm.once, ?_, ?_, hm.known⟩
              · intro q' n' D hA
                dsimp only
                have hd := hm.inDir q' n' D hA
                split
                · rename_i e
                  subst e
                  refine List.mem_filter.mpr ⟨hd, ?_⟩
                  simp only [ne_eq, decide_not, Bool.not_eq_eq_eq_not, Bool.not_true, decide_eq_false_iff_not]
                  intro e
                  subst e
                  exact e2 _ rfl _ hin q' hA
                · exact hd
              · intro j k' hj
                obtain ⟨_, rfl⟩ := hkcs _ j k' hj
                refine ⟨fun n' hn' => ?_, fun D hD n' hn' q hA => ?_⟩
                · show n' ∈ (if D0 = D0 then (m.w.dir D0).filter (· ≠ n) else m.w.dir D0)
                  rw [if_pos rfl]
                  have := List.mem_filter.mp hn'
                  exact List.mem_filter.mpr ⟨e1 n' this.1, this.2⟩
                · cases hD
                  exact e2 D0 rfl n' (List.mem_filter.mp hn').1 q hA
              · intro j j' k1 k2 hj hj'
                rw [(hkcs _ j k1 hj).1, (hkcs _ j' k2 hj').1]
            | mem ks =>
              simp only [putTpm, pibState, putPib, tpmKeys] at e1 ⊢
              refine ⟨hm.inDir, hm.once, ?_, ?_, hm.known⟩
              · intro j k' hj
                obtain ⟨_, rfl⟩ := hkcs _ j k' hj
                refine ⟨fun n' hn' => ?_, fun D hD => by cases hD⟩
                have := List.mem_filter.mp hn'
                exact List.mem_filter.mpr ⟨e1 n' this.1, this.2⟩
              · intro j j' k1 k2 hj hj'
                rw [(hkcs _ j k1 hj).1, (hkcs _ j' k2 hj').1]
        · rw [if_neg hin]; exact hm

/-- A history of three KeyChains, one after another, on one PIB: its keys are there, then erased, then others are made. -/
example : (run sys fresh (apart ++ [.make host 0 (.given [':', '/', 'x'] [':', '/', 'x'] false), .add 0 8, .remove 0 7, .drop 0,
    .make host 2 (.given [':', '/', 'x'] [':', '/', 'y'] true), .add 2 9])).w.db ['/', 'x'] = ⟨canonical ⟨tpmFile, ['/', 'y']⟩, [9]⟩ := by decide +kernel

end Ndn.Locator
